import Verif.SceneGraph.Parent
import Verif.Registry.Lemmas
import Mathlib.Data.List.Nodup

/-!
# The printed scene (C133)

Models `Scene::print_graph`, `print_node_`, `print_node_details_` (`scene.ipp` 1219-1232, 1262-1336) and `SceneObject::get_info` (`scene_object.hpp` 76-83) on the scene graph of `SceneGraph/Model`.

Simplifications: standard error is not a terminal, so that `colorize` returns its text (`colorful_text.hpp` 57-67); nodes have no
names, since nothing calls `register_node_name_`; the numbers `id()` of the nodes are given by an injective function of the node.
-/
set_option linter.unusedSimpArgs false
namespace Huira.SceneGraph
open Registry (decimal decimal_inj decimalAux digitChar)

/-- `std::string`. -/
abbrev Text := List Char

/-- What an instance can show: `Instantiable` (`instance.hpp` 32-37) with the concrete classes. -/
inductive AssetType where
  | primitive | sphereLight | unresolvedObject | unresolvedEmitter | unresolvedSphere | unresolvedAsteroid | cameraModel | model
deriving DecidableEq

/-- `type()` (`primitive.hpp` 29, `sphere_light.hpp` 45, `unresolved_object.hpp` 43, `unresolved_emitter.hpp` 35,
`unresolved_sphere.hpp` 35, `unresolved_asteroid.hpp` 35, `camera_model.hpp` 148, `model.hpp` 48). -/
def AssetType.text : AssetType → Text
  | .primitive => "Primitive".toList
  | .sphereLight => "SphereLight".toList
  | .unresolvedObject => "UnresolvedObject".toList
  | .unresolvedEmitter => "UnresolvedEmitter".toList
  | .unresolvedSphere => "UnresolvedLambertianSphere".toList
  | .unresolvedAsteroid => "UnresolvedAsteroid".toList
  | .cameraModel => "CameraModel".toList
  | .model => "Model".toList

/-- An asset: its class, its number and its name. -/
structure Asset where
  ty : AssetType
  id : Nat
  name : Text

/-- `SceneObject::get_info` (`scene_object.hpp` 80-83). -/
def objInfo (ty : Text) (id : Nat) (name : Text) : Text :=
  ty ++ '[' :: decimal id ++ ']' :: (if name = [] then [] else ' ' :: name)

/-- `get_info` of an asset. -/
def Asset.info (a : Asset) : Text := objInfo a.ty.text a.id a.name

/-- A scene as it is printed: the graph, the numbers of its nodes and its assets. -/
structure Shown (V : Type) where
  g : Graph V Text
  ident : Nat → Nat
  asset : Nat → Asset

variable {V : Type}

/-- `print_node_details_` (`scene.ipp` 1319-1336). -/
def details (x : Node V Text) : Text :=
  let o := x.origin.getD []
  let f := x.frame.getD []
  if o ≠ [] ∨ f ≠ [] then
    [' ', '('] ++ (if o ≠ [] then o ++ (if f ≠ [] then [',', ' '] else []) else []) ++ (if f ≠ [] then f else []) ++ [')']
  else []

/-- The `std::visit` over the asset of an instance (`scene.ipp` 1284-1299): the variant holds a `Primitive*`, never a `Mesh*`. -/
def assetText (a : Asset) : Text :=
  match a.ty with
  | .primitive => []
  | _ => a.info

/-- What `print_node_` writes after the branch and before the end of the line (`scene.ipp` 1279-1304). -/
def label (s : Shown V) (n : Nat) : Text :=
  (if (s.g.node n).isFrame then objInfo "FrameNode".toList (s.ident n) []
   else "Instance[".toList ++ decimal (s.ident n) ++ ']' :: ([' ', '-', '>', ' '] ++
    match (s.g.node n).asset with
    | some a => assetText (s.asset a)
    | none => [])) ++ details (s.g.node n)

/-- The branch before a node (`scene.ipp` 1277). -/
def branch (last : Bool) : Text := if last then ['+', '-', '-', ' '] else ['|', '-', '-', ' ']

/-- What is put before the lines of the children of a node (`scene.ipp` 1306). -/
def bar (last : Bool) : Text := if last then [' ', ' ', ' ', ' '] else ['|', ' ', ' ', ' ']

/-- `print_node_` (`scene.ipp` 1271-1314); `fuel` bounds the depth of the recursion. -/
def printNode (s : Shown V) : Nat → Nat → Text → Bool → Text
  | 0, _, _, _ => []
  | fuel + 1, n, pre, last =>
    pre ++ branch last ++ label s n ++ ['\n'] ++
      (s.g.node n).children.zipIdx.flatMap fun ci =>
        printNode s fuel ci.1 (pre ++ bar last) (decide (ci.2 = (s.g.node n).children.length - 1))

/-- `print_graph` (`scene.ipp` 1219-1232). -/
def printGraph (s : Shown V) : Text :=
  "root".toList ++ details (s.g.node 0) ++ ['\n'] ++
    (s.g.node 0).children.zipIdx.flatMap fun ci =>
      printNode s s.g.count ci.1 [] (decide (ci.2 = (s.g.node 0).children.length - 1))

/-! ### The specification -/

/-- The node is the last child of its parent. -/
def IsLast (g : Graph V Text) (n : Nat) : Prop := ∃ p, (g.node n).parent = some p ∧ (g.node p).children.getLast? = some n

open Classical in
/-- The columns to the left of the children of a node: four characters for every ancestor below the root, a bar if there is a
further sibling to come. -/
inductive Columns (g : Graph V Text) : Nat → Text → Prop
  | root : Columns g 0 []
  | child {n p t} : (g.node n).parent = some p → Columns g p t → Columns g n (t ++ bar (decide (IsLast g n)))

open Classical in
/-- The line of a node. -/
def IsLine (s : Shown V) (n : Nat) (t : Text) : Prop :=
  ∃ p c, (s.g.node n).parent = some p ∧ Columns s.g p c ∧ t = c ++ branch (decide (IsLast s.g n)) ++ label s n

/-! ### Children are in the order of creation -/

theorem addChild_children (d : Local V) (g : Graph V Text) (p : Nat) (f : Bool) (a : Option Nat) (i : Nat) (hp : p < g.count) :
    ((addChild d g p f a).node i).children = if i = g.count then [] else if i = p then (g.node p).children ++ [g.count] else (g.node i).children := by
  rw [addChild_node]
  by_cases h : i = g.count
  · simp [h, freshNode]
  · by_cases h2 : i = p
    · subst h2; simp [h]
    · simp [h, h2]

theorem Reach.sorted {d : Local V} {a b : Text} {ok} {g : Graph V Text} (h : Reach d a b ok g) :
    ∀ p, p < g.count → (g.node p).children.Pairwise (· < ·) := by
  induction h with
  | init => intro p _; simp [initGraph, freshNode]
  | @step g op hr _ ih =>
    have hw := hr.wf
    intro p hp
    rcases step_shape d hw op with hs | ⟨q, f, as, hf, hs⟩
    · rw [hs.children]; exact ih p (by rw [hs.count] at hp; exact hp)
    · simp only [frameOk, Bool.and_eq_true, decide_eq_true_eq] at hf
      rw [hs.children, addChild_children _ _ _ _ _ _ hf.1]
      split
      · exact .nil
      · next e =>
        split
        · next e2 =>
          subst e2
          rw [List.pairwise_append]
          refine ⟨ih p hf.1, List.pairwise_singleton _ _, fun x hx y hy => ?_⟩
          rw [List.mem_singleton] at hy
          subst hy
          exact (hw.down x p hf.1 hx).1
        · refine ih p ?_
          rw [hs.count] at hp
          have : (addChild d g q f as).count = g.count + 1 := rfl
          omega

/-! ### The lines -/

/-- The nodes of `printNode` with their lines. -/
def entries (s : Shown V) : Nat → Nat → Text → Bool → List (Nat × Text)
  | 0, _, _, _ => []
  | fuel + 1, n, pre, last =>
    (n, pre ++ branch last ++ label s n) ::
      (s.g.node n).children.zipIdx.flatMap fun ci =>
        entries s fuel ci.1 (pre ++ bar last) (decide (ci.2 = (s.g.node n).children.length - 1))

/-- The same for `printGraph` below the root. -/
def allEntries (s : Shown V) : List (Nat × Text) :=
  (s.g.node 0).children.zipIdx.flatMap fun ci =>
    entries s s.g.count ci.1 [] (decide (ci.2 = (s.g.node 0).children.length - 1))

theorem printNode_entries (s : Shown V) : ∀ fuel n pre last,
    printNode s fuel n pre last = (entries s fuel n pre last).flatMap fun e => e.2 ++ ['\n'] := by
  intro fuel
  induction fuel with
  | zero => intros; rfl
  | succ k ih =>
    intro n pre last
    rw [printNode, entries, List.flatMap_cons, List.flatMap_assoc]
    simp only [ih]

theorem printGraph_entries (s : Shown V) :
    printGraph s = "root".toList ++ details (s.g.node 0) ++ ['\n'] ++ (allEntries s).flatMap fun e => e.2 ++ ['\n'] := by
  rw [printGraph, allEntries, List.flatMap_assoc]
  simp only [printNode_entries]

/-- The flag `is_last` says what it should. -/
theorem last_iff {g : Graph V Text} (hw : WF g) (hs : ∀ p, p < g.count → (g.node p).children.Pairwise (· < ·)) {p : Nat} (hp : p < g.count)
    {ci : Nat × Nat} (h : ci ∈ (g.node p).children.zipIdx) :
    ci.1 ∈ (g.node p).children ∧ (ci.2 = (g.node p).children.length - 1 ↔ IsLast g ci.1) := by
  obtain ⟨hlt, he⟩ := List.mem_zipIdx' h
  have hmem : ci.1 ∈ (g.node p).children := by rw [he]; exact List.getElem_mem _
  refine ⟨hmem, ?_⟩
  have hpar := (hw.down ci.1 p hp hmem).2
  have hlast : IsLast g ci.1 ↔ (g.node p).children.getLast? = some ci.1 := by
    constructor
    · rintro ⟨q, hq, hl⟩
      rw [hpar, Option.some.injEq] at hq
      subst hq; exact hl
    · intro hl; exact ⟨p, hpar, hl⟩
  rw [hlast, List.getLast?_eq_getElem?, List.getElem?_eq_getElem (by omega), Option.some.injEq]
  constructor
  · intro hi
    rw [he]; congr 1; exact hi.symm
  · intro hi
    have hnd : (g.node p).children.Nodup := (hs p hp).imp (fun h => Nat.ne_of_lt h)
    rw [he] at hi
    exact ((List.Nodup.getElem_inj_iff hnd).1 hi).symm

open Classical in
theorem entries_line {s : Shown V} (hw : WF s.g) (hs : ∀ p, p < s.g.count → (s.g.node p).children.Pairwise (· < ·)) :
    ∀ fuel n p pre, n < s.g.count → (s.g.node n).parent = some p → Columns s.g p pre →
      ∀ e ∈ entries s fuel n pre (decide (IsLast s.g n)), IsLine s e.1 e.2 := by
  intro fuel
  induction fuel with
  | zero => intro n p pre _ _ _ e he; simp [entries] at he
  | succ k ih =>
    intro n p pre hn hp hc e he
    rw [entries, List.mem_cons] at he
    rcases he with rfl | he
    · exact ⟨p, pre, hp, hc, rfl⟩
    · obtain ⟨ci, hci, he⟩ := List.mem_flatMap.1 he
      obtain ⟨hm, hl⟩ := last_iff hw hs hn hci
      have hd := hw.down _ _ hn hm
      rw [show (decide (ci.2 = (s.g.node n).children.length - 1)) = decide (IsLast s.g ci.1) from decide_eq_decide.2 hl] at he
      exact ih ci.1 n _ hd.1 hd.2 (.child hp hc) e he

/-! ### Every node once -/

/-- The nodes under a node in the order of printing. -/
def preorder (g : Graph V Text) : Nat → Nat → List Nat
  | 0, _ => []
  | fuel + 1, n => n :: (g.node n).children.flatMap (preorder g fuel)

theorem zipIdx_flatMap {α β : Type} (l : List α) (f : α → List β) : ∀ k, (l.zipIdx k).flatMap (fun ci => f ci.1) = l.flatMap f := by
  induction l with
  | nil => intro k; rfl
  | cons a l ih => intro k; rw [List.zipIdx_cons, List.flatMap_cons, List.flatMap_cons, ih]

theorem entries_preorder (s : Shown V) : ∀ fuel n pre last, (entries s fuel n pre last).map Prod.fst = preorder s.g fuel n := by
  intro fuel
  induction fuel with
  | zero => intros; rfl
  | succ k ih =>
    intro n pre last
    rw [entries, preorder, List.map_cons, List.map_flatMap]
    simp only [ih]
    rw [zipIdx_flatMap (s.g.node n).children (preorder s.g k)]

theorem allEntries_preorder (s : Shown V) : (allEntries s).map Prod.fst = (s.g.node 0).children.flatMap (preorder s.g s.g.count) := by
  rw [allEntries, List.map_flatMap]
  simp only [entries_preorder]
  rw [zipIdx_flatMap (s.g.node 0).children (preorder s.g s.g.count)]

theorem mem_preorder {g : Graph V Text} (hw : WF g) : ∀ fuel n m, n < g.count → g.count ≤ fuel + n →
    (m ∈ preorder g fuel n ↔ (m = n ∨ Below g n m)) := by
  intro fuel
  induction fuel with
  | zero => intro n m h1 h2; omega
  | succ k ih =>
    intro n m h1 h2
    rw [preorder, List.mem_cons, List.mem_flatMap]
    apply or_congr Iff.rfl
    constructor
    · rintro ⟨c, hc, hm⟩
      have hd := hw.down c n h1 hc
      have := (hw.up c n hd.1 hd.2).1
      rcases (ih c m hd.1 (by omega)).1 hm with rfl | hb
      · exact .child hd.1 hd.2
      · have : ∀ {m}, Below g c m → Below g n m := by
          intro m hb
          induction hb with
          | child a b => exact .deeper (.child hd.1 hd.2) a b
          | deeper _ a b ih => exact .deeper ih a b
        exact this hb
    · intro hb
      obtain ⟨c, hc, hp, hm⟩ := hb.split
      have hu := hw.up c n hc hp
      exact ⟨c, hu.2, (ih c m hc (by omega)).2 hm⟩

theorem below_le {g : Graph V Text} (hw : WF g) {n m : Nat} (h : m = n ∨ Below g n m) : n ≤ m := by
  rcases h with rfl | h
  · exact Nat.le_refl _
  · exact Nat.le_of_lt (below_lt hw h)

/-- The parts of the tree under two siblings have no common node. -/
theorem siblings_disjoint {g : Graph V Text} (hw : WF g) {n c c' : Nat} (hc : c < g.count) (hc' : c' < g.count)
    (h1 : (g.node c).parent = some n) (h2 : (g.node c').parent = some n) :
    ∀ m, (m = c ∨ Below g c m) → (m = c' ∨ Below g c' m) → c = c' := by
  have lt1 := (hw.up c n hc h1).1
  have lt2 := (hw.up c' n hc' h2).1
  have up : ∀ {x y}, Below g x y → ∃ p, (g.node y).parent = some p ∧ (p = x ∨ Below g x p) := by
    intro x y h
    cases h with
    | child _ hp => exact ⟨_, hp, Or.inl rfl⟩
    | deeper hb _ hp => exact ⟨_, hp, Or.inr hb⟩
  intro m
  induction m using Nat.strongRecOn with
  | ind m ih =>
    intro a b
    rcases a with rfl | a
    · rcases b with rfl | b
      · rfl
      · obtain ⟨p, hp, hb⟩ := up b
        rw [h1, Option.some.injEq] at hp
        have := below_le hw hb
        omega
    · rcases b with rfl | b
      · obtain ⟨p, hp, hb⟩ := up a
        rw [h2, Option.some.injEq] at hp
        have := below_le hw hb
        omega
      · obtain ⟨p, hp, ha⟩ := up a
        obtain ⟨q, hq, hb⟩ := up b
        rw [hp, Option.some.injEq] at hq
        subst hq
        have hm : m < g.count := by cases a <;> assumption
        exact ih p (hw.up m p hm hp).1 ha hb

theorem forest_nodup {g : Graph V Text} (hw : WF g) (hs : ∀ p, p < g.count → (g.node p).children.Pairwise (· < ·)) (k n : Nat)
    (hn : n < g.count) (hk : g.count ≤ k + n + 1) (ih : ∀ c ∈ (g.node n).children, (preorder g k c).Nodup) :
    ((g.node n).children.flatMap (preorder g k)).Nodup := by
  rw [List.nodup_flatMap]
  refine ⟨ih, ?_⟩
  refine List.Pairwise.imp_of_mem ?_ (hs n hn)
  intro c c' hc hc' hlt m hm hm'
  have d1 := hw.down c n hn hc
  have d2 := hw.down c' n hn hc'
  have u1 := (hw.up _ _ d1.1 d1.2).1
  have u2 := (hw.up _ _ d2.1 d2.2).1
  have := siblings_disjoint hw d1.1 d2.1 d1.2 d2.2 m ((mem_preorder hw k c m d1.1 (by omega)).1 hm)
    ((mem_preorder hw k c' m d2.1 (by omega)).1 hm')
  omega

theorem preorder_nodup {g : Graph V Text} (hw : WF g) (hs : ∀ p, p < g.count → (g.node p).children.Pairwise (· < ·)) :
    ∀ k n, n < g.count → g.count ≤ k + n → (preorder g k n).Nodup := by
  intro k
  induction k with
  | zero => intro n h1 h2; omega
  | succ k ih =>
    intro n h1 h2
    rw [preorder, List.nodup_cons]
    constructor
    · intro hm
      obtain ⟨c, hc, hm⟩ := List.mem_flatMap.1 hm
      have hd := hw.down c n h1 hc
      have hu := (hw.up _ _ hd.1 hd.2).1
      have := below_le hw ((mem_preorder hw k c n hd.1 (by omega)).1 hm)
      omega
    · refine forest_nodup hw hs k n h1 (by omega) fun c hc => ?_
      have hd := hw.down c n h1 hc
      have hu := (hw.up _ _ hd.1 hd.2).1
      exact ih c hd.1 (by omega)

theorem allEntries_nodes {s : Shown V} (hw : WF s.g) (hs : ∀ p, p < s.g.count → (s.g.node p).children.Pairwise (· < ·)) :
    ((allEntries s).map Prod.fst).Nodup ∧ ∀ n, n ∈ (allEntries s).map Prod.fst ↔ 0 < n ∧ n < s.g.count := by
  rw [allEntries_preorder]
  constructor
  · refine forest_nodup hw hs _ 0 hw.pos (by omega) fun c hc => ?_
    exact preorder_nodup hw hs _ c (hw.down c 0 hw.pos hc).1 (by omega)
  · intro n
    rw [List.mem_flatMap]
    constructor
    · rintro ⟨c, hc, hm⟩
      have hd := hw.down c 0 hw.pos hc
      have hu := (hw.up _ _ hd.1 hd.2).1
      have hb := (mem_preorder hw _ c n hd.1 (by omega)).1 hm
      have hle := below_le hw hb
      refine ⟨by omega, ?_⟩
      rcases hb with rfl | hb
      · exact hd.1
      · cases hb <;> assumption
    · rintro ⟨h0, hn⟩
      obtain ⟨c, hc, hp, hm⟩ := (below_root hw n hn (by omega)).split
      exact ⟨c, (hw.up c 0 hc hp).2, (mem_preorder hw _ c n hc (by omega)).2 hm⟩

/-- **C133.**  The printed graph has a line for the root and exactly one line for every other node; each is drawn with the columns of
its ancestors, in every scene that calls can produce. -/
theorem C133_layout (d : Local V) (a b : Text) (s : Shown V) (hr : Reach d a b Any s.g) :
    ∃ L : List (Nat × Text), (L.map Prod.fst).Nodup ∧ (∀ n, n ∈ L.map Prod.fst ↔ 0 < n ∧ n < s.g.count) ∧
      (∀ e ∈ L, IsLine s e.1 e.2) ∧
      printGraph s = "root".toList ++ details (s.g.node 0) ++ ['\n'] ++ L.flatMap fun e => e.2 ++ ['\n'] := by
  classical
  have hw := hr.wf
  have hs := hr.sorted
  refine ⟨allEntries s, (allEntries_nodes hw hs).1, (allEntries_nodes hw hs).2, ?_, printGraph_entries s⟩
  intro e he
  obtain ⟨ci, hci, he⟩ := List.mem_flatMap.1 he
  obtain ⟨hm, hl⟩ := last_iff hw hs hw.pos hci
  have hd := hw.down _ _ hw.pos hm
  rw [show (decide (ci.2 = (s.g.node 0).children.length - 1)) = decide (IsLast s.g ci.1) from decide_eq_decide.2 hl] at he
  exact entries_line hw hs _ _ 0 [] hd.1 hd.2 .root e he

/-! ### Reading a line -/

/-- The depth of a line and what follows the branch. -/
def readLine : Text → Option (Nat × Text)
  | ' ' :: ' ' :: ' ' :: ' ' :: r => (readLine r).map fun x => (x.1 + 1, x.2)
  | '|' :: ' ' :: ' ' :: ' ' :: r => (readLine r).map fun x => (x.1 + 1, x.2)
  | '|' :: '-' :: '-' :: ' ' :: r => some (0, r)
  | '+' :: '-' :: '-' :: ' ' :: r => some (0, r)
  | _ => none

theorem readLine_branch (l : Bool) (r : Text) : readLine (branch l ++ r) = some (0, r) := by
  cases l <;> simp [branch, readLine]

theorem readLine_bar (l : Bool) (r : Text) : readLine (bar l ++ r) = (readLine r).map fun x => (x.1 + 1, x.2) := by
  cases l <;> simp [bar, readLine]

/-- Columns of a depth. -/
inductive Cols : Nat → Text → Prop
  | nil : Cols 0 []
  | snoc {d t} (l : Bool) : Cols d t → Cols (d + 1) (t ++ bar l)

theorem readLine_cols {d : Nat} {t : Text} (h : Cols d t) : ∀ (x : Nat) (r r' : Text), readLine r = some (x, r') → readLine (t ++ r) = some (d + x, r') := by
  induction h with
  | nil => intro x r r' hr; simpa using hr
  | snoc l _ ih =>
    intro x r r' hr
    rw [List.append_assoc, ih (x + 1) _ r' (by rw [readLine_bar, hr]; rfl)]
    rw [show ∀ a b : Nat, a + (b + 1) = a + 1 + b from fun a b => by omega]

theorem readLine_line {d : Nat} {t : Text} (h : Cols d t) (l : Bool) (r : Text) : readLine (t ++ branch l ++ r) = some (d, r) := by
  rw [List.append_assoc, readLine_cols h 0 _ r (readLine_branch l r)]; rfl

/-! ### Depths and nodes -/

/-- Depth and node, line by line. -/
def outline (g : Graph V Text) : Nat → Nat → Nat → List (Nat × Nat)
  | 0, _, _ => []
  | fuel + 1, d, n => (d, n) :: (g.node n).children.flatMap (outline g fuel (d + 1))

theorem entries_outline (s : Shown V) : ∀ fuel d n pre last, Cols d pre →
    (entries s fuel n pre last).map (fun e => readLine e.2) = (outline s.g fuel d n).map fun x => some (x.1, label s x.2) := by
  intro fuel
  induction fuel with
  | zero => intros; rfl
  | succ k ih =>
    intro d n pre last hc
    rw [entries, outline, List.map_cons, List.map_cons, List.map_flatMap, List.map_flatMap, readLine_line hc]
    congr 1
    simp only [ih (d + 1) _ _ _ (hc.snoc last)]
    rw [zipIdx_flatMap (s.g.node n).children fun a => (outline s.g k (d + 1) a).map fun x => some (x.1, label s x.2)]

theorem allEntries_outline (s : Shown V) :
    (allEntries s).map (fun e => readLine e.2) =
      ((s.g.node 0).children.flatMap (outline s.g s.g.count 0)).map fun x => some (x.1, label s x.2) := by
  rw [allEntries, List.map_flatMap, List.map_flatMap]
  simp only [entries_outline s _ 0 _ _ _ .nil]
  rw [zipIdx_flatMap (s.g.node 0).children fun a => (outline s.g s.g.count 0 a).map fun x => some (x.1, label s x.2)]

theorem outline_snd (g : Graph V Text) : ∀ fuel d n, (outline g fuel d n).map Prod.snd = preorder g fuel n := by
  intro fuel
  induction fuel with
  | zero => intros; rfl
  | succ k ih =>
    intro d n
    rw [outline, preorder, List.map_cons, List.map_flatMap]
    simp only [ih]

/-- Depths and nodes determine the tree. -/
theorem outline_inj {g g' : Graph V Text} (hw : WF g) (hw' : WF g') : ∀ k k' d (l l' : List Nat) (r r' : List (Nat × Nat)),
    (∀ c ∈ l, c < g.count ∧ g.count ≤ k + c) → (∀ c ∈ l', c < g'.count ∧ g'.count ≤ k' + c) →
    (∀ x ∈ r.head?, x.1 < d) → (∀ x ∈ r'.head?, x.1 < d) →
    l.flatMap (outline g k d) ++ r = l'.flatMap (outline g' k' d) ++ r' →
    l = l' ∧ r = r' ∧ ∀ m, (∃ c ∈ l, m = c ∨ Below g c m) → (g.node m).children = (g'.node m).children := by
  intro k
  induction k with
  | zero =>
    intro k' d l l' r r' h1 h2 hr hr' he
    cases l with
    | cons c cs => have := h1 c (by simp); omega
    | nil =>
      cases l' with
      | nil => exact ⟨rfl, by simpa using he, fun m ⟨c, hc, _⟩ => by simp at hc⟩
      | cons c cs =>
        have := h2 c (by simp)
        cases k' with
        | zero => omega
        | succ k' =>
          simp only [List.flatMap_nil, List.nil_append, List.flatMap_cons, outline, List.cons_append] at he
          have := hr (d, c) (by rw [he]; simp)
          omega
  | succ k ihk =>
    intro k' d l
    induction l with
    | nil =>
      intro l' r r' h1 h2 hr hr' he
      cases l' with
      | nil => exact ⟨rfl, by simpa using he, fun m ⟨c, hc, _⟩ => by simp at hc⟩
      | cons c cs =>
        have := h2 c (by simp)
        cases k' with
        | zero => omega
        | succ k' =>
          simp only [List.flatMap_nil, List.nil_append, List.flatMap_cons, outline, List.cons_append] at he
          have := hr (d, c) (by rw [he]; simp)
          omega
    | cons c cs ihl =>
      intro l' r r' h1 h2 hr hr' he
      cases l' with
      | nil =>
        simp only [List.flatMap_nil, List.nil_append, List.flatMap_cons, outline, List.cons_append] at he
        have := hr' (d, c) (by rw [← he]; simp)
        omega
      | cons c' cs' =>
        have b1 := h1 c (by simp)
        have b2 := h2 c' (by simp)
        cases k' with
        | zero => omega
        | succ k' =>
          simp only [List.flatMap_cons, outline, List.cons_append, List.cons.injEq, Prod.mk.injEq, true_and, List.append_assoc] at he
          obtain ⟨hcc, he⟩ := he
          subst hcc
          have head : ∀ (gg : Graph V Text) (f : Nat) (ds : List Nat) (q : List (Nat × Nat)), (∀ x ∈ q.head?, x.1 < d) →
              ∀ x ∈ (ds.flatMap (outline gg (f + 1) d) ++ q).head?, x.1 < d + 1 := by
            intro gg f ds q hq x hx
            cases ds with
            | nil => have := hq x (by simpa using hx); omega
            | cons e es =>
              simp only [List.flatMap_cons, outline, List.cons_append, List.head?_cons, Option.mem_def, Option.some.injEq] at hx
              subst hx; exact Nat.lt_succ_self _
          obtain ⟨e1, e2, e3⟩ := ihk k' (d + 1) _ _ _ _
            (fun x hx => by
              have hd := hw.down x c b1.1 hx
              have := (hw.up x c hd.1 hd.2).1
              exact ⟨hd.1, by omega⟩)
            (fun x hx => by
              have hd := hw'.down x c b2.1 hx
              have := (hw'.up x c hd.1 hd.2).1
              exact ⟨hd.1, by omega⟩)
            (head g k cs r hr) (head g' k' cs' r' hr') he
          obtain ⟨f1, f2, f3⟩ := ihl cs' r r' (fun x hx => h1 x (List.mem_cons_of_mem _ hx))
            (fun x hx => h2 x (List.mem_cons_of_mem _ hx)) hr hr' e2
          refine ⟨by rw [f1], f2, ?_⟩
          rintro m ⟨x, hx, hm⟩
          rcases List.mem_cons.1 hx with rfl | hx
          · rcases hm with rfl | hm
            · exact e1
            · obtain ⟨y, hy, hp, hm⟩ := hm.split
              exact e3 m ⟨y, (hw.up y x hy hp).2, hm⟩
          · exact f3 m ⟨x, hx, hm⟩

/-! ### Reading a label -/

theorem digit_char (k : Nat) (h : k < 10) : (digitChar k).isDigit = true := by
  have : k = 0 ∨ k = 1 ∨ k = 2 ∨ k = 3 ∨ k = 4 ∨ k = 5 ∨ k = 6 ∨ k = 7 ∨ k = 8 ∨ k = 9 := by omega
  rcases this with h | h | h | h | h | h | h | h | h | h <;> subst h <;> rfl

theorem decimal_digits : ∀ fuel k, ∀ c ∈ decimalAux fuel k, c.isDigit = true := by
  intro fuel
  induction fuel with
  | zero => intro k c hc; simp [decimalAux] at hc
  | succ f ih =>
    intro k c hc
    rw [decimalAux] at hc
    split at hc
    · next h => rw [List.mem_singleton] at hc; subst hc; exact digit_char k h
    · rcases List.mem_append.1 hc with hc | hc
      · exact ih _ c hc
      · rw [List.mem_singleton] at hc; subst hc; exact digit_char _ (by omega)

/-- A text without the character, the character, the rest. -/
theorem split_at {z : Char} : ∀ {x x' r r' : Text}, z ∉ x → z ∉ x' → x ++ z :: r = x' ++ z :: r' → x = x' ∧ r = r' := by
  intro x
  induction x with
  | nil =>
    intro x' r r' _ h' he
    cases x' with
    | nil => exact ⟨rfl, by simpa using he⟩
    | cons c cs =>
      simp only [List.nil_append, List.cons_append, List.cons.injEq] at he
      exact absurd (by simp [he.1]) h'
  | cons c cs ih =>
    intro x' r r' h h' he
    cases x' with
    | nil =>
      simp only [List.nil_append, List.cons_append, List.cons.injEq] at he
      exact absurd (by simp [he.1]) h
    | cons c' cs' =>
      simp only [List.cons_append, List.cons.injEq] at he
      obtain ⟨e1, e2⟩ := ih (fun hm => h (List.mem_cons_of_mem _ hm)) (fun hm => h' (List.mem_cons_of_mem _ hm)) he.2
      exact ⟨by rw [he.1, e1], e2⟩

theorem number_at {i j : Nat} {r r' : Text} (h : decimal i ++ ']' :: r = decimal j ++ ']' :: r') : i = j ∧ r = r' := by
  have no : ∀ k, ']' ∉ decimal k := fun k hm => absurd (decimal_digits _ _ _ hm) (by decide)
  obtain ⟨e1, e2⟩ := split_at (no i) (no j) h
  exact ⟨decimal_inj e1, e2⟩

theorem type_at {t t' : AssetType} {r r' : Text} (h : t.text ++ '[' :: r = t'.text ++ '[' :: r') : t = t' ∧ r = r' := by
  have no : ∀ k : AssetType, '[' ∉ k.text := fun k => by cases k <;> decide
  obtain ⟨e1, e2⟩ := split_at (no t) (no t') h
  refine ⟨?_, e2⟩
  revert e1
  cases t <;> cases t' <;> decide

/-- What a label tells about the asset of an instance. -/
def shownAsset (s : Shown V) (n : Nat) : Option (AssetType × Nat) :=
  match (s.g.node n).asset with
  | none => none
  | some a => if (s.asset a).ty = .primitive then none else some ((s.asset a).ty, (s.asset a).id)

theorem assetText_of {a : Asset} (h : a.ty ≠ .primitive) : assetText a = a.info := by
  unfold assetText
  cases e : a.ty with
  | primitive => exact absurd e h
  | _ => rfl

theorem details_head (x : Node V Text) : ∀ c ∈ (details x).head?, c = ' ' := by
  intro c hc
  unfold details at hc
  simp only at hc
  split at hc
  · simpa using hc.symm
  · simp at hc

theorem info_head (a : Asset) (r : Text) : ∃ c, (a.info ++ r).head? = some c ∧ c ≠ ' ' := by
  unfold Asset.info objInfo
  cases a.ty <;> exact ⟨_, rfl, by decide⟩

theorem label_inj {s s' : Shown V} {n n' : Nat} (h : label s n = label s' n') :
    s.ident n = s'.ident n' ∧ (s.g.node n).isFrame = (s'.g.node n').isFrame ∧
      ((s.g.node n).isFrame = true → details (s.g.node n) = details (s'.g.node n')) ∧
      ((s.g.node n).isFrame = false → shownAsset s n = shownAsset s' n') := by
  unfold label at h
  cases hf : (s.g.node n).isFrame <;> cases hf' : (s'.g.node n').isFrame
  · rw [hf, hf'] at h
    simp only [Bool.false_eq_true, if_false] at h
    rw [List.append_assoc, List.append_assoc, List.append_assoc, List.append_assoc] at h
    have h := List.append_cancel_left h
    simp only [List.cons_append, List.nil_append] at h
    obtain ⟨e1, e2⟩ := number_at h
    refine ⟨e1, rfl, (by intro hh; cases hh), fun _ => ?_⟩
    simp only [List.cons.injEq, true_and] at e2
    have key : ∀ (q q' : Shown V) (k k' : Nat) (a : Nat), (q.g.node k).asset = some a → (q.asset a).ty ≠ .primitive → shownAsset q' k' = none →
        (match (q.g.node k).asset with | some a => assetText (q.asset a) | none => []) ++ details (q.g.node k) ≠
        (match (q'.g.node k').asset with | some a => assetText (q'.asset a) | none => []) ++ details (q'.g.node k') := by
      intro q q' k k' a ha hp hn he
      have e0 : (match (q'.g.node k').asset with | some a => assetText (q'.asset a) | none => []) = [] := by
        unfold shownAsset at hn
        cases hx : (q'.g.node k').asset with
        | none => rfl
        | some y =>
          rw [hx] at hn
          simp only at hn
          split at hn
          · next e => simp only [assetText, e]
          · cases hn
      rw [ha, e0, List.nil_append] at he
      simp only [assetText_of hp] at he
      obtain ⟨c, hc, hne⟩ := info_head (q.asset a) (details (q.g.node k))
      rw [he] at hc
      exact hne (details_head _ c hc)
    cases hx : shownAsset s n with
    | none =>
      cases hy : shownAsset s' n' with
      | none => rfl
      | some y =>
        exfalso
        unfold shownAsset at hy
        cases hz : (s'.g.node n').asset with
        | none => rw [hz] at hy; cases hy
        | some z =>
          rw [hz] at hy
          simp only at hy
          split at hy
          · cases hy
          · next e => exact key s' s n' n z hz e hx e2.symm
    | some x =>
      unfold shownAsset at hx
      cases hz : (s.g.node n).asset with
      | none => rw [hz] at hx; cases hx
      | some z =>
        rw [hz] at hx
        simp only at hx
        split at hx
        · cases hx
        · next e =>
          cases hy : shownAsset s' n' with
          | none => exact absurd e2 (key s s' n n' z hz e hy)
          | some y =>
            unfold shownAsset at hy
            cases hw : (s'.g.node n').asset with
            | none => rw [hw] at hy; cases hy
            | some w =>
              rw [hw] at hy
              simp only at hy
              split at hy
              · cases hy
              · next e' =>
                rw [hz, hw] at e2
                simp only [assetText_of e, assetText_of e', Asset.info, objInfo] at e2
                simp only [List.append_assoc, List.cons_append] at e2
                obtain ⟨t1, t2⟩ := type_at e2
                obtain ⟨t3, _⟩ := number_at t2
                rw [← hx, ← hy, t1, t3]
  · rw [hf, hf'] at h; simp [objInfo] at h
  · rw [hf, hf'] at h; simp [objInfo] at h
  · rw [hf, hf'] at h
    rw [if_pos rfl, if_pos rfl] at h
    unfold objInfo at h
    rw [List.append_assoc, List.append_assoc, List.append_assoc, List.append_assoc, List.cons_append, List.cons_append] at h
    have h := List.append_cancel_left h
    have h := (List.cons.inj h).2
    obtain ⟨e1, e2⟩ := number_at h
    exact ⟨e1, rfl, (fun _ => by simpa using e2), (by intro hh; cases hh)⟩

/-! ### The text determines the tree -/

/-- Neither names nor SPICE strings contain a line break. -/
structure Plain (s : Shown V) : Prop where
  names : ∀ n a, n < s.g.count → (s.g.node n).asset = some a → '\n' ∉ (s.asset a).name
  origins : ∀ n o, n < s.g.count → (s.g.node n).origin = some o → '\n' ∉ o
  frames : ∀ n f, n < s.g.count → (s.g.node n).frame = some f → '\n' ∉ f

theorem decimal_plain (k : Nat) : '\n' ∉ decimal k := fun hm => absurd (decimal_digits _ _ _ hm) (by decide)

theorem details_plain {s : Shown V} (h : Plain s) {n : Nat} (hn : n < s.g.count) : '\n' ∉ details (s.g.node n) := by
  have ho : '\n' ∉ (s.g.node n).origin.getD [] := by
    cases e : (s.g.node n).origin with
    | none => simp
    | some o => exact h.origins n o hn e
  have hf : '\n' ∉ (s.g.node n).frame.getD [] := by
    cases e : (s.g.node n).frame with
    | none => simp
    | some o => exact h.frames n o hn e
  unfold details
  simp only
  split_ifs <;> simp [ho, hf]

theorem info_plain {a : Asset} (h : '\n' ∉ a.name) : '\n' ∉ a.info := by
  unfold Asset.info objInfo
  have ht : '\n' ∉ a.ty.text := by cases a.ty <;> decide
  have hd := decimal_plain a.id
  split_ifs <;> simp [ht, hd, h]

theorem label_plain {s : Shown V} (h : Plain s) {n : Nat} (hn : n < s.g.count) : '\n' ∉ label s n := by
  have hd := details_plain h hn
  have hi := decimal_plain (s.ident n)
  unfold label
  rw [List.mem_append, not_or]
  refine ⟨?_, hd⟩
  split
  · unfold objInfo; simp [hi]
  · have : '\n' ∉ (match (s.g.node n).asset with | some a => assetText (s.asset a) | none => []) := by
      cases e : (s.g.node n).asset with
      | none => simp
      | some a =>
        have hp := info_plain (h.names n a hn e)
        simp only [assetText]
        cases (s.asset a).ty <;> simp [hp]
    simp [hi, this]

theorem lines_inj : ∀ {l l' : List (Nat × Text)}, (∀ e ∈ l, '\n' ∉ e.2) → (∀ e ∈ l', '\n' ∉ e.2) →
    (l.flatMap fun e => e.2 ++ ['\n']) = (l'.flatMap fun e => e.2 ++ ['\n']) → l.map Prod.snd = l'.map Prod.snd := by
  intro l
  induction l with
  | nil =>
    intro l' _ _ he
    cases l' with
    | nil => rfl
    | cons e es => simp at he
  | cons e es ih =>
    intro l' h h' he
    cases l' with
    | nil => simp at he
    | cons e' es' =>
      simp only [List.flatMap_cons, List.append_assoc, List.singleton_append] at he
      obtain ⟨a, b⟩ := split_at (h e (by simp)) (h' e' (by simp)) he
      rw [List.map_cons, List.map_cons, a, ih (fun x hx => h x (List.mem_cons_of_mem _ hx)) (fun x hx => h' x (List.mem_cons_of_mem _ hx)) b]

theorem columns_plain {g : Graph V Text} {n : Nat} {t : Text} (h : Columns g n t) : '\n' ∉ t := by
  induction h with
  | root => simp
  | child _ _ ih =>
    rw [List.mem_append, not_or]
    refine ⟨ih, ?_⟩
    unfold bar; split_ifs <;> simp

/-- Two lists with the same depths and labels have the same nodes, node by node with the same label. -/
theorem labels_inj {f f' : Nat → Text} (hf : ∀ a b, f a = f' b → a = b) : ∀ {l l' : List (Nat × Nat)},
    (l.map fun x => some (x.1, f x.2)) = (l'.map fun x => some (x.1, f' x.2)) → l = l' ∧ ∀ x ∈ l, f x.2 = f' x.2 := by
  intro l
  induction l with
  | nil =>
    intro l' h
    cases l' with
    | nil => exact ⟨rfl, by simp⟩
    | cons => simp at h
  | cons a l ih =>
    intro l' h
    cases l' with
    | nil => simp at h
    | cons a' l' =>
      simp only [List.map_cons, List.cons.injEq, Option.some.injEq, Prod.mk.injEq] at h
      obtain ⟨⟨h1, h2⟩, h3⟩ := h
      obtain ⟨i1, i2⟩ := ih h3
      have h4 := hf _ _ h2
      refine ⟨by rw [i1, Prod.ext h1 h4], ?_⟩
      intro x hx
      rcases List.mem_cons.1 hx with rfl | hx
      · rw [h2, h4]
      · exact i2 x hx

theorem dom_eq {g g' : Graph V Text} (hw : WF g) (hw' : WF g') (h : ∀ n, (0 < n ∧ n < g.count) ↔ (0 < n ∧ n < g'.count)) : g.count = g'.count := by
  have p := hw.pos
  have p' := hw'.pos
  by_contra hne
  rcases Nat.lt_or_gt_of_ne hne with hlt | hgt
  · have := ((h g.count).2 ⟨p, hlt⟩).2; omega
  · have := ((h g'.count).1 ⟨p', hgt⟩).2; omega

/-- What the property asks of the printed graph: the tree, the kinds, the assets and the SPICE names. -/
structure SameScene (s s' : Shown V) : Prop where
  count : s.g.count = s'.g.count
  isFrame : ∀ n, 0 < n → n < s.g.count → (s.g.node n).isFrame = (s'.g.node n).isFrame
  parent : ∀ n, n < s.g.count → (s.g.node n).parent = (s'.g.node n).parent
  children : ∀ n, n < s.g.count → (s.g.node n).children = (s'.g.node n).children
  asset : ∀ n a, 0 < n → n < s.g.count → (s.g.node n).isFrame = false → (s.g.node n).asset = some a →
    ∃ a', (s'.g.node n).asset = some a' ∧ (s'.asset a').ty = (s.asset a).ty ∧ (s'.asset a').id = (s.asset a).id
  spice : ∀ n, n < s.g.count → (s.g.node n).isFrame = true →
    (s.g.node n).origin.getD [] = (s'.g.node n).origin.getD [] ∧ (s.g.node n).frame.getD [] = (s'.g.node n).frame.getD []

/-- C133 in full. -/
def C133_full (d : Local V) (a b : Text) : Prop :=
  ∀ s s' : Shown V, Reach d a b Any s.g → Reach d a b Any s'.g → Function.Injective s.ident → s.ident = s'.ident →
    printGraph s = printGraph s' → SameScene s s'

/-- **C133.**  Names and SPICE strings without line breaks: the printed text determines the nodes, which of them are frames, the
parent and the ordered children of each, the class and number of the asset of every instance that is not an instance of a
primitive, and the printed SPICE names of the frames. -/
theorem C133_read_back_partial (d : Local V) (a b a' b' : Text) (s s' : Shown V) (hr : Reach d a b Any s.g) (hr' : Reach d a' b' Any s'.g)
    (hp : Plain s) (hp' : Plain s') (hi : Function.Injective s.ident) (hid : s.ident = s'.ident) (h : printGraph s = printGraph s') :
    s.g.count = s'.g.count ∧
    (∀ n, 0 < n → n < s.g.count → (s.g.node n).isFrame = (s'.g.node n).isFrame) ∧
    (∀ n, n < s.g.count → (s.g.node n).parent = (s'.g.node n).parent ∧ (s.g.node n).children = (s'.g.node n).children) ∧
    (∀ n x, 0 < n → n < s.g.count → (s.g.node n).isFrame = false → (s.g.node n).asset = some x → (s.asset x).ty ≠ .primitive →
      ∃ x', (s'.g.node n).asset = some x' ∧ (s'.asset x').ty = (s.asset x).ty ∧ (s'.asset x').id = (s.asset x).id) ∧
    (∀ n, n < s.g.count → (n = 0 ∨ (s.g.node n).isFrame = true) → details (s.g.node n) = details (s'.g.node n)) := by
  have hw := hr.wf
  have hw' := hr'.wf
  have lines : ∀ (q : Shown V) (x y : Text), Reach d x y Any q.g → Plain q → ∀ e ∈ allEntries q, '\n' ∉ e.2 := by
    intro q x y hq hpl e he
    obtain ⟨ci, hci, he'⟩ := List.mem_flatMap.1 he
    obtain ⟨hm, hl⟩ := last_iff hq.wf hq.sorted hq.wf.pos hci
    have hd := hq.wf.down _ _ hq.wf.pos hm
    classical
    rw [show (decide (ci.2 = (q.g.node 0).children.length - 1)) = decide (IsLast q.g ci.1) from decide_eq_decide.2 hl] at he'
    obtain ⟨p, c, _, hc, ht⟩ := entries_line hq.wf hq.sorted _ _ 0 [] hd.1 hd.2 .root e he'
    have hn := ((allEntries_nodes hq.wf hq.sorted).2 e.1).1 (List.mem_map_of_mem he)
    rw [ht, List.mem_append, List.mem_append, not_or, not_or]
    refine ⟨⟨columns_plain hc, ?_⟩, label_plain hpl hn.2⟩
    unfold branch; split_ifs <;> simp
  rw [printGraph_entries, printGraph_entries, List.append_assoc, List.append_assoc, List.append_assoc, List.append_assoc] at h
  have h := List.append_cancel_left h
  simp only [List.singleton_append] at h
  obtain ⟨e0, e1⟩ := split_at (details_plain hp hw.pos) (details_plain hp' hw'.pos) h
  have e2 := lines_inj (lines s a b hr hp) (lines s' a' b' hr' hp') e1
  have e3 : (allEntries s).map (fun e => readLine e.2) = (allEntries s').map (fun e => readLine e.2) := by
    have := congrArg (List.map readLine) e2
    rwa [List.map_map, List.map_map] at this
  rw [allEntries_outline, allEntries_outline] at e3
  obtain ⟨e4, e5⟩ := labels_inj (fun x y hxy => hi (by rw [(label_inj hxy).1, hid])) e3
  obtain ⟨k1, _, k3⟩ := outline_inj hw hw' s.g.count s'.g.count 0 _ _ [] []
    (fun c hc => ⟨(hw.down c 0 hw.pos hc).1, by omega⟩) (fun c hc => ⟨(hw'.down c 0 hw'.pos hc).1, by omega⟩)
    (by simp) (by simp) (by rw [e4])
  have mem : ∀ (q : Shown V), (((q.g.node 0).children.flatMap (outline q.g q.g.count 0)).map Prod.snd) = (allEntries q).map Prod.fst := by
    intro q
    rw [allEntries_preorder, List.map_flatMap]
    simp only [outline_snd]
  have hcount : s.g.count = s'.g.count := by
    refine dom_eq hw hw' fun n => ?_
    rw [← (allEntries_nodes hw hr.sorted).2 n, ← (allEntries_nodes hw' hr'.sorted).2 n, ← mem s, ← mem s', e4]
  have lab : ∀ n, 0 < n → n < s.g.count → label s n = label s' n := by
    intro n h0 hn
    have hm := ((allEntries_nodes hw hr.sorted).2 n).2 ⟨h0, hn⟩
    rw [← mem s] at hm
    obtain ⟨x, hx, rfl⟩ := List.mem_map.1 hm
    exact e5 x hx
  have kids : ∀ n, n < s.g.count → (s.g.node n).children = (s'.g.node n).children := by
    intro n hn
    by_cases h0 : n = 0
    · subst h0; exact k1
    · obtain ⟨c, hc, hpc, hm⟩ := (below_root hw n hn h0).split
      exact k3 n ⟨c, (hw.up c 0 hc hpc).2, hm⟩
  refine ⟨hcount, fun n h0 hn => (label_inj (lab n h0 hn)).2.1, fun n hn => ⟨?_, kids n hn⟩, ?_, ?_⟩
  · by_cases h0 : n = 0
    · subst h0; rw [hw.root, hw'.root]
    · obtain ⟨p, hpn⟩ := hw.nonroot n hn h0
      have hu := hw.up n p hn hpn
      rw [kids p (by omega)] at hu
      rw [hpn, (hw'.down n p (by omega) hu.2).2]
  · intro n x h0 hn hf hx hty
    have hl := (label_inj (lab n h0 hn)).2.2.2 hf
    have e : shownAsset s n = some ((s.asset x).ty, (s.asset x).id) := by
      simp only [shownAsset, hx]; rw [if_neg hty]
    rw [e] at hl
    unfold shownAsset at hl
    cases hy : (s'.g.node n).asset with
    | none => rw [hy] at hl; cases hl
    | some y =>
      rw [hy] at hl
      simp only at hl
      split at hl
      · cases hl
      · rw [Option.some.injEq, Prod.mk.injEq] at hl
        exact ⟨y, rfl, hl.1.symm, hl.2.symm⟩
  · intro n hn hor
    by_cases h0 : n = 0
    · subst h0; exact e0
    · exact (label_inj (lab n (by omega) hn)).2.2.1 (hor.resolve_left h0)

/-- One instance of the asset 0. -/
def oneInstance (d : Local V) (a b : Text) (x : Asset) : Shown V :=
  ⟨(step d (initGraph d a b) (.newInstance 0 0)).1, id, fun _ => x⟩

/-- An instance of a primitive does not show which one: the variant holds a `Primitive*`, the code asks for a `Mesh`. -/
theorem C133_violated (d : Local V) (a b : Text) : ¬ C133_full d a b := by
  intro h
  have hh := h (oneInstance d a b ⟨.primitive, 0, ['a']⟩) (oneInstance d a b ⟨.primitive, 1, ['b']⟩) (.step .init trivial) (.step .init trivial)
    Function.injective_id rfl rfl
  obtain ⟨x, _, _, h3⟩ := hh.asset 1 0 (by decide) (show 1 < 2 by decide) rfl rfl
  exact absurd h3 (show ¬ (1 : Nat) = 0 by decide)

/-- A frame that takes its position from SPICE and a frame that takes its orientation from SPICE are printed alike. -/
theorem C133_violated_spice (d : Local V) (a b x : Text) (hx : x ≠ []) :
    ∃ s s' : Shown V, Reach d a b Any s.g ∧ Reach d a b Any s'.g ∧ printGraph s = printGraph s' ∧
      (s.g.node 1).origin = some x ∧ (s.g.node 1).frame = none ∧ (s'.g.node 1).origin = none ∧ (s'.g.node 1).frame = some x := by
  refine ⟨⟨(step d (step d (initGraph d a b) (.newSubframe 0)).1 (.setSpiceOrigin 1 x)).1, id, fun _ => ⟨.model, 0, []⟩⟩,
    ⟨(step d (step d (initGraph d a b) (.newSubframe 0)).1 (.setSpiceFrame 1 x)).1, id, fun _ => ⟨.model, 0, []⟩⟩,
    .step (.step .init trivial) trivial, .step (.step .init trivial) trivial, ?_, rfl, rfl, rfl, rfl⟩
  have hd : details ((step d (step d (initGraph d a b) (.newSubframe 0)).1 (.setSpiceOrigin 1 x)).1.node 1) =
      details ((step d (step d (initGraph d a b) (.newSubframe 0)).1 (.setSpiceFrame 1 x)).1.node 1) := by
    simp [details, step, initGraph, freshNode, frameOk, nodeOk, posCanBeSpice, rotCanBeSpice, addChild, Graph.set, hx]
  have hd0 : details ((step d (step d (initGraph d a b) (.newSubframe 0)).1 (.setSpiceOrigin 1 x)).1.node 0) =
      details ((step d (step d (initGraph d a b) (.newSubframe 0)).1 (.setSpiceFrame 1 x)).1.node 0) := rfl
  have c0 : ((step d (step d (initGraph d a b) (.newSubframe 0)).1 (.setSpiceOrigin 1 x)).1.node 0).children = [1] := rfl
  have c0' : ((step d (step d (initGraph d a b) (.newSubframe 0)).1 (.setSpiceFrame 1 x)).1.node 0).children = [1] := rfl
  have c1 : ((step d (step d (initGraph d a b) (.newSubframe 0)).1 (.setSpiceOrigin 1 x)).1.node 1).children = [] := rfl
  have c1' : ((step d (step d (initGraph d a b) (.newSubframe 0)).1 (.setSpiceFrame 1 x)).1.node 1).children = [] := rfl
  have n : ((step d (step d (initGraph d a b) (.newSubframe 0)).1 (.setSpiceOrigin 1 x)).1.node 1).isFrame = true := rfl
  have n' : ((step d (step d (initGraph d a b) (.newSubframe 0)).1 (.setSpiceFrame 1 x)).1.node 1).isFrame = true := rfl
  have k : (step d (step d (initGraph d a b) (.newSubframe 0)).1 (.setSpiceOrigin 1 x)).1.count = 2 := rfl
  have k' : (step d (step d (initGraph d a b) (.newSubframe 0)).1 (.setSpiceFrame 1 x)).1.count = 2 := rfl
  simp only [printGraph, printNode, label, c0, c0', c1, c1', n, n', k, k', hd, hd0, if_true, List.zipIdx_cons, List.zipIdx_nil,
    List.flatMap_cons, List.flatMap_nil, List.length_singleton]

/-- A transform of a scene without coordinates. -/
def unitLocal : Local Unit := ⟨(), (), (), (), ()⟩

/-- Line breaks in names draw nodes where there are none: two different trees with the same picture. -/
theorem C133_violated_names :
    ∃ s s' : Shown Unit, Reach unitLocal [] [] Any s.g ∧ Reach unitLocal [] [] Any s'.g ∧ printGraph s = printGraph s' ∧ s.g.count = 5 ∧ s'.g.count = 5 ∧
      (s.g.node 3).parent = some 2 ∧ (s'.g.node 3).parent = some 0 := by
  refine ⟨⟨(step unitLocal (step unitLocal (step unitLocal (step unitLocal (initGraph unitLocal [] []) (.newInstance 0 0)).1 (.newSubframe 0)).1 (.newInstance 2 1)).1 (.newSubframe 0)).1, id,
      fun n => if n = 0 then ⟨.sphereLight, 0, ['x']⟩ else ⟨.sphereLight, 1, "u\n|-- FrameNode[2]\n|-- Instance[3] -> SphereLight[1] u".toList⟩⟩,
    ⟨(step unitLocal (step unitLocal (step unitLocal (step unitLocal (initGraph unitLocal [] []) (.newInstance 0 0)).1 (.newSubframe 0)).1 (.newInstance 0 1)).1 (.newSubframe 0)).1, id,
      fun n => if n = 0 then ⟨.sphereLight, 0, "x\n|-- FrameNode[2]\n|   +-- Instance[3] -> SphereLight[1] u".toList⟩ else ⟨.sphereLight, 1, ['u']⟩⟩,
    .step (.step (.step (.step .init trivial) trivial) trivial) trivial, .step (.step (.step (.step .init trivial) trivial) trivial) trivial,
    ?_, rfl, rfl, rfl, rfl⟩
  decide +kernel

/-- **C133.**  The printed SPICE names of a node: with names free of commas, the text determines them up to the confusion of a lone
origin with a lone frame. -/
theorem C133_spice_partial (x y : Node V Text) (hx : ',' ∉ x.origin.getD []) (hy : ',' ∉ y.origin.getD [])
    (hx' : ',' ∉ x.frame.getD []) (hy' : ',' ∉ y.frame.getD []) (h : details x = details y) :
    (x.origin.getD [] = y.origin.getD [] ∧ x.frame.getD [] = y.frame.getD []) ∨
    (x.origin.getD [] = [] ∧ y.frame.getD [] = [] ∧ x.frame.getD [] = y.origin.getD []) ∨
    (x.frame.getD [] = [] ∧ y.origin.getD [] = [] ∧ x.origin.getD [] = y.frame.getD []) := by
  unfold details at h
  simp only at h
  generalize x.origin.getD [] = o at *
  generalize x.frame.getD [] = f at *
  generalize y.origin.getD [] = o' at *
  generalize y.frame.getD [] = f' at *
  have comma : ∀ (p q r : Text), ',' ∉ r → p ++ ',' :: q ≠ r := by
    intro p q r hr he; exact hr (by rw [← he]; simp)
  by_cases a1 : o = [] <;> by_cases a2 : f = [] <;> by_cases a3 : o' = [] <;> by_cases a4 : f' = [] <;>
    simp only [a1, a2, a3, a4, ne_eq, not_true_eq_false, not_false_eq_true, or_self, or_true, true_or, if_true, if_false, List.append_nil,
      List.nil_append, List.cons_append, List.cons.injEq, true_and, List.append_cancel_right_eq, reduceCtorEq] at h ⊢
  all_goals first
    | exact Or.inl ⟨rfl, rfl⟩
    | (simp at h; done)
    | (subst h; simp; done)
    | skip
  · exact absurd h.symm (by rw [List.append_assoc]; exact comma _ _ _ hx')
  · exact absurd h.symm (by rw [List.append_assoc]; exact comma _ _ _ hx)
  · exact absurd h (by rw [List.append_assoc]; exact comma _ _ _ hy')
  · exact absurd h (by rw [List.append_assoc]; exact comma _ _ _ hy)
  · rw [List.append_assoc, List.append_assoc] at h
    obtain ⟨e1, e2⟩ := split_at hx hy h
    exact Or.inl ⟨e1, (List.cons.inj e2).2⟩

/-- A frame with a light in it, and a camera: the picture. -/
example : printGraph ⟨(step unitLocal (step unitLocal (step unitLocal (initGraph unitLocal "SSB".toList "J2000".toList) (.newSubframe 0)).1 (.newInstance 1 0)).1
      (.newInstance 0 1)).1, id, fun n => if n = 0 then ⟨.sphereLight, 4, "sun".toList⟩ else ⟨.cameraModel, 0, "navcam".toList⟩⟩ =
    ("root (SSB, J2000)\n" ++ "|-- FrameNode[1]\n" ++ "|   +-- Instance[2] -> SphereLight[4] sun\n" ++
      "+-- Instance[3] -> CameraModel[0] navcam\n").toList := by decide +kernel

/-- The hypotheses of `C133_read_back_partial` can be met. -/
example (d : Local V) : Plain (⟨(step d (initGraph d "SSB".toList "J2000".toList) (.newInstance 0 0)).1, id,
    fun _ => ⟨.sphereLight, 4, "sun".toList⟩⟩ : Shown V) := by
  refine ⟨fun n a _ _ => (show '\n' ∉ "sun".toList by decide), ?_, ?_⟩
  · intro n o hn ho
    have : n = 0 ∨ n = 1 := by have : n < 2 := hn; omega
    rcases this with rfl | rfl
    · cases ho; decide
    · cases ho
  · intro n o hn ho
    have : n = 0 ∨ n = 1 := by have : n < 2 := hn; omega
    rcases this with rfl | rfl
    · cases ho; decide
    · cases ho

end Huira.SceneGraph
