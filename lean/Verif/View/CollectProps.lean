import Verif.View.CollectModel
import Mathlib.Data.List.Basic
import Mathlib.Data.List.Nodup
import Mathlib.Data.List.Perm.Basic
import Mathlib.Tactic

/-!
# Everything in the scene graph is rendered once, where it is (C99)
-/

set_option linter.unusedSimpArgs false
set_option linter.unusedVariables false

namespace Huira.Collect

variable {T : Type}

/-! ## Specification: places in the graph -/

/-- A step down the graph: to a child, or from an instance of a model to the root of the model's graph. -/
inductive Step where
  | child (i : Nat)
  | into
deriving DecidableEq

/-- The node at the end of a path. -/
def nodeAt : Node T → List Step → Option (Node T)
  | n, [] => some n
  | n, .child i :: p => match n.children[i]? with
    | some c => nodeAt c p
    | none => none
  | n, .into :: p => match n.asset with
    | .model r => nodeAt r p
    | _ => none

/-- The local transforms of the nodes along a path, both ends included. -/
def localsAt : Node T → List Step → List T
  | n, [] => [n.loc]
  | n, .child i :: p => n.loc :: match n.children[i]? with
    | some c => localsAt c p
    | none => []
  | n, .into :: p => n.loc :: match n.asset with
    | .model r => localsAt r p
    | _ => []

/-- The transforms, relative to the camera, of the node at the end of a path: for a node of the scene graph its own, for a node of a
model those of the model's instance followed by the local transforms on the way from the model's root. -/
def transformsAt (mul : T → T → T) : Node T → List Step → List T
  | n, [] => n.apparent
  | n, .child i :: p => match n.children[i]? with
    | some c => transformsAt mul c p
    | none => []
  | n, .into :: p => match n.asset with
    | .model r => n.apparent.map fun t => (localsAt r p).foldl mul t
    | _ => []

/-- The primitive, light or unresolved object at a path. -/
def primAt (n : Node T) (q : List Step) : Option Nat := match (nodeAt n q).map Node.asset with | some (.prim p) => some p | _ => none
def lightAt (n : Node T) (q : List Step) : Option Nat := match (nodeAt n q).map Node.asset with | some (.light l) => some l | _ => none
def unresolvedAt (n : Node T) (q : List Step) : Option Nat :=
  match (nodeAt n q).map Node.asset with | some (.unresolved u) => some u | _ => none

/-! ## Enumeration of the places -/

mutual
def nodePaths : Node T → List (List Step)
  | .mk _ _ a cs => [] :: (assetPaths a ++ listPaths 0 cs)
def assetPaths : Asset T → List (List Step)
  | .model r => (nodePaths r).map (Step.into :: ·)
  | .none => []
  | .prim _ => []
  | .light _ => []
  | .camera => []
  | .unresolved _ => []
def listPaths (i : Nat) : List (Node T) → List (List Step)
  | [] => []
  | n :: ns => (nodePaths n).map (Step.child i :: ·) ++ listPaths (i + 1) ns
end

theorem mem_assetPaths {a : Asset T} {q : List Step} : q ∈ assetPaths a ↔ ∃ r q', a = .model r ∧ q = .into :: q' ∧ q' ∈ nodePaths r := by
  cases a <;> simp [assetPaths]
  constructor
  · rintro ⟨x, h, rfl⟩; exact ⟨x, rfl, h⟩
  · rintro ⟨x, rfl, h⟩; exact ⟨x, h, rfl⟩

theorem mem_listPaths {q : List Step} : ∀ {cs : List (Node T)} {k : Nat}, q ∈ listPaths k cs ↔
    ∃ j c q', cs[j]? = some c ∧ q = .child (k + j) :: q' ∧ q' ∈ nodePaths c
  | [], k => by simp [listPaths]
  | n :: ns, k => by
    rw [listPaths, List.mem_append, mem_listPaths]
    constructor
    · rintro (h | ⟨j, c, q', h1, h2, h3⟩)
      · obtain ⟨q', h', rfl⟩ := List.mem_map.1 h
        exact ⟨0, n, q', by simp, by simp, h'⟩
      · exact ⟨j + 1, c, q', by simpa using h1, by rw [h2]; congr 2; omega, h3⟩
    · rintro ⟨j, c, q', h1, h2, h3⟩
      cases j with
      | zero =>
        left
        simp only [List.getElem?_cons_zero, Option.some.injEq] at h1
        subst h1
        exact List.mem_map.2 ⟨q', h3, by rw [h2]; simp⟩
      | succ j =>
        right
        exact ⟨j, c, q', by simpa using h1, by rw [h2]; congr 2; omega, h3⟩

theorem mem_nodePaths : ∀ {q : List Step} {n : Node T}, q ∈ nodePaths n ↔ (nodeAt n q).isSome
  | [], .mk ap loc a cs => by simp [nodePaths, nodeAt]
  | .child i :: q, .mk ap loc a cs => by
    rw [nodePaths, List.mem_cons, List.mem_append, mem_assetPaths, mem_listPaths]
    simp only [reduceCtorEq, false_or, List.cons.injEq, false_and, and_false, exists_false, Step.child.injEq, Nat.zero_add,
      nodeAt, Node.children]
    cases h : cs[i]? with
    | none =>
      simp only [Option.isSome_none, Bool.false_eq_true, iff_false]
      rintro ⟨j, c, q', h1, ⟨rfl, rfl⟩, h3⟩
      rw [h] at h1; cases h1
    | some c =>
      rw [← mem_nodePaths]
      constructor
      · rintro ⟨j, c', q', h1, ⟨rfl, rfl⟩, h3⟩
        rw [h] at h1; cases h1; exact h3
      · intro h'; exact ⟨i, c, q, h, ⟨rfl, rfl⟩, h'⟩
  | .into :: q, .mk ap loc a cs => by
    rw [nodePaths, List.mem_cons, List.mem_append, mem_assetPaths, mem_listPaths]
    simp only [reduceCtorEq, false_or, List.cons.injEq, true_and, false_and, and_false, exists_false, or_false, nodeAt, Node.asset]
    cases a with
    | model r =>
      simp only [Asset.model.injEq]
      rw [← mem_nodePaths]
      constructor
      · rintro ⟨r', q', rfl, rfl, h⟩; exact h
      · intro h; exact ⟨r, q, rfl, rfl, h⟩
    | _ => simp

mutual
theorem nodup_node : ∀ n : Node T, (nodePaths n).Nodup
  | .mk _ _ a cs => by
    rw [nodePaths, List.nodup_cons, List.nodup_append]
    refine ⟨?_, nodup_asset a, nodup_list 0 cs, ?_⟩
    · rw [List.mem_append, mem_assetPaths, mem_listPaths]; simp
    · intro x hx y hy
      rw [mem_assetPaths] at hx
      rw [mem_listPaths] at hy
      obtain ⟨r, q, _, rfl, _⟩ := hx
      obtain ⟨j, c, q', _, rfl, _⟩ := hy
      simp
theorem nodup_asset : ∀ a : Asset T, (assetPaths a).Nodup
  | .model r => by
    rw [assetPaths]
    exact (nodup_node r).map (fun x y h => by simpa using h)
  | .none => by simp [assetPaths]
  | .prim _ => by simp [assetPaths]
  | .light _ => by simp [assetPaths]
  | .camera => by simp [assetPaths]
  | .unresolved _ => by simp [assetPaths]
theorem nodup_list : ∀ (k : Nat) (cs : List (Node T)), (listPaths k cs).Nodup
  | k, [] => by simp [listPaths]
  | k, n :: ns => by
    rw [listPaths, List.nodup_append]
    refine ⟨(nodup_node n).map (fun x y h => by simpa using h), nodup_list (k + 1) ns, ?_⟩
    intro x hx y hy
    obtain ⟨q, _, rfl⟩ := List.mem_map.1 hx
    rw [mem_listPaths] at hy
    obtain ⟨j, c, q', _, rfl, _⟩ := hy
    simp only [ne_eq, List.cons.injEq, Step.child.injEq, not_and]
    intro h; omega
end

/-! ## The traversals collect the items at the places, in order -/

/-- What a node contributes. -/
inductive Item where
  | prim (p : Nat)
  | light (l : Nat)
  | unresolved (u : Nat)
deriving DecidableEq

def itemOf : Asset T → Option Item
  | .prim p => some (.prim p)
  | .light l => some (.light l)
  | .unresolved u => some (.unresolved u)
  | .none => none
  | .camera => none
  | .model _ => none

def St.add (s : St T) : Item × List T → St T
  | (.prim p, tf) => s.addPrim p tf
  | (.light l, tf) => s.addLight l tf
  | (.unresolved u, tf) => s.addUnresolved u tf

def itemAt (n : Node T) (q : List Step) : Option Item := (nodeAt n q).bind fun m => itemOf m.asset

def placeM (mul : T → T → T) (parent : List T) (n : Node T) (q : List Step) : Option (Item × List T) :=
  (itemAt n q).map fun i => (i, parent.map fun t => (localsAt n q).foldl mul t)

def place (mul : T → T → T) (n : Node T) (q : List Step) : Option (Item × List T) :=
  (itemAt n q).map fun i => (i, transformsAt mul n q)

theorem filterMap_listPaths {β : Type} (f : List Step → Option β) (g : Node T → List Step → Option β) :
    ∀ (cs : List (Node T)) (k : Nat), (∀ j c, cs[j]? = some c → ∀ q, f (.child (k + j) :: q) = g c q) →
    (listPaths k cs).filterMap f = cs.flatMap fun c => (nodePaths c).filterMap (g c)
  | [], k, _ => by simp [listPaths]
  | n :: ns, k, h => by
    rw [listPaths, List.filterMap_append, List.flatMap_cons, List.filterMap_map]
    rw [filterMap_listPaths f g ns (k + 1) (fun j c hj q => by
      rw [show k + 1 + j = k + (j + 1) by omega]; exact h (j + 1) c (by simpa using hj) q)]
    congr 1
    apply List.filterMap_congr
    intro q _
    exact h 0 n (by simp) q

theorem handle_item (mul : T → T → T) (s : St T) (tf : List T) (a : Asset T) (h : ∀ r, a ≠ .model r) :
    handle mul s tf a = ((itemOf a).map fun i => (i, tf)).toList.foldl St.add s := by
  cases a <;> simp_all [handle, itemOf, St.add]

mutual
theorem handle_eq (mul : T → T → T) : ∀ (a : Asset T) (s : St T) (tf : List T),
    handle mul s tf a = (((itemOf a).map fun i => (i, tf)).toList ++
      (assetPaths a).filterMap fun q => match q, a with
        | .into :: q', .model r => placeM mul tf r q'
        | _, _ => none).foldl St.add s
  | .model r, s, tf => by
    rw [handle, modelNode_eq mul r s tf, assetPaths, List.filterMap_map]
    simp only [itemOf, Option.map_none, Option.toList_none, List.nil_append]
    rfl
  | .none, s, tf => by rw [handle_item _ _ _ _ (by simp)]; simp [assetPaths]
  | .prim _, s, tf => by rw [handle_item _ _ _ _ (by simp)]; simp [assetPaths]
  | .light _, s, tf => by rw [handle_item _ _ _ _ (by simp)]; simp [assetPaths]
  | .camera, s, tf => by rw [handle_item _ _ _ _ (by simp)]; simp [assetPaths]
  | .unresolved _, s, tf => by rw [handle_item _ _ _ _ (by simp)]; simp [assetPaths]
theorem modelNode_eq (mul : T → T → T) : ∀ (n : Node T) (s : St T) (parent : List T),
    modelNode mul s parent n = ((nodePaths n).filterMap (placeM mul parent n)).foldl St.add s
  | .mk ap loc a cs, s, parent => by
    rw [modelNode, modelList_eq mul cs, handle_eq mul a, ← List.foldl_append, nodePaths, List.filterMap_cons]
    rw [List.filterMap_append, filterMap_listPaths (placeM mul parent (.mk ap loc a cs))
      (fun c q => placeM mul (parent.map fun t => mul t loc) c q) cs 0 (by
        intro j c hj q
        simp only [placeM, itemAt, nodeAt, Node.children, Nat.zero_add, hj, localsAt, Node.loc, List.foldl_cons, List.map_map]
        rfl)]
    have e1 : placeM mul parent (.mk ap loc a cs) [] = (itemOf a).map fun i => (i, parent.map fun t => mul t loc) := by
      simp [placeM, itemAt, nodeAt, Node.asset, localsAt, Node.loc]
    have e2 : ((assetPaths a).filterMap fun q => match q, a with
        | .into :: q', .model r => placeM mul (parent.map fun t => mul t loc) r q'
        | _, _ => none) = (assetPaths a).filterMap (placeM mul parent (.mk ap loc a cs)) := by
      apply List.filterMap_congr
      intro q hq
      obtain ⟨r, q', rfl, rfl, _⟩ := mem_assetPaths.1 hq
      simp only [placeM, itemAt, nodeAt, Node.asset, localsAt, Node.loc, List.foldl_cons, List.map_map]
      rfl
    rw [e1, e2]
    cases itemOf a <;> simp
theorem modelList_eq (mul : T → T → T) : ∀ (cs : List (Node T)) (s : St T) (parent : List T),
    modelList mul s parent cs = (cs.flatMap fun c => (nodePaths c).filterMap (placeM mul parent c)).foldl St.add s
  | [], s, parent => by simp [modelList]
  | n :: ns, s, parent => by
    rw [modelList, modelList_eq mul ns, modelNode_eq mul n, List.flatMap_cons, List.foldl_append]
end

mutual
theorem collect_eq (mul : T → T → T) : ∀ (n : Node T) (s : St T),
    collect mul s n = ((nodePaths n).filterMap (place mul n)).foldl St.add s
  | .mk ap loc a cs, s => by
    rw [collect, collectList_eq mul cs, handle_eq mul a, ← List.foldl_append, nodePaths, List.filterMap_cons]
    rw [List.filterMap_append, filterMap_listPaths (place mul (.mk ap loc a cs))
      (fun c q => place mul c q) cs 0 (by
        intro j c hj q
        simp only [place, itemAt, nodeAt, Node.children, Nat.zero_add, hj, transformsAt])]
    have e1 : place mul (.mk ap loc a cs) [] = (itemOf a).map fun i => (i, ap) := by
      simp [place, itemAt, nodeAt, Node.asset, transformsAt, Node.apparent]
    have e2 : ((assetPaths a).filterMap fun q => match q, a with
        | .into :: q', .model r => placeM mul ap r q'
        | _, _ => none) = (assetPaths a).filterMap (place mul (.mk ap loc a cs)) := by
      apply List.filterMap_congr
      intro q hq
      obtain ⟨r, q', rfl, rfl, _⟩ := mem_assetPaths.1 hq
      simp only [place, placeM, itemAt, nodeAt, Node.asset, transformsAt, Node.apparent]
    rw [e1, e2]
    cases itemOf a <;> simp
theorem collectList_eq (mul : T → T → T) : ∀ (cs : List (Node T)) (s : St T),
    collectList mul s cs = (cs.flatMap fun c => (nodePaths c).filterMap (place mul c)).foldl St.add s
  | [], s => by simp [collectList]
  | n :: ns, s => by
    rw [collectList, collectList_eq mul ns, collect_eq mul n, List.flatMap_cons, List.foldl_append]
end

/-! ## Batches -/

/-- The instances of the batches, one by one. -/
def flat (bs : List (Nat × List (List T))) : List (Nat × List T) := bs.flatMap fun b => b.2.map fun tf => (b.1, tf)

/-- `batch_lookup_` finds exactly the batches. -/
def Inv (s : St T) : Prop := ∀ p i, s.lookup p = some i ↔ ∃ b, s.primitives[i]? = some b ∧ b.1 = p

theorem flat_modify (tf : List T) : ∀ (l : List (Nat × List (List T))) (i : Nat) (b : Nat × List (List T)), l[i]? = some b →
    (flat (l.modify i fun b => (b.1, b.2 ++ [tf]))).Perm (flat l ++ [(b.1, tf)])
  | [], i, b, h => by simp at h
  | c :: l, 0, b, h => by
    simp only [List.getElem?_cons_zero, Option.some.injEq] at h
    subst h
    simp only [flat, List.modify_zero_cons, List.flatMap_cons, List.map_append, List.map_cons, List.map_nil, List.append_assoc]
    exact List.Perm.append_left _ List.perm_append_comm
  | c :: l, i + 1, b, h => by
    have ih := flat_modify tf l i b (by simpa using h)
    simp only [flat, List.modify_succ_cons, List.flatMap_cons, List.append_assoc] at ih ⊢
    exact List.Perm.append_left _ ih

theorem inv_init : Inv ({} : St T) := by intro p i; simp

theorem inv_addPrim {s : St T} (h : Inv s) (p : Nat) (tf : List T) : Inv (s.addPrim p tf) := by
  unfold St.addPrim
  cases hl : s.lookup p with
  | some idx =>
    intro q i
    simp only
    rw [h q i]
    simp only [List.getElem?_modify]
    constructor
    · rintro ⟨b, hb, rfl⟩
      by_cases hi : idx = i
      · exact ⟨(b.1, b.2 ++ [tf]), by rw [hb]; simp [hi], rfl⟩
      · exact ⟨b, by rw [hb]; simp [hi], rfl⟩
    · rintro ⟨b, hb, rfl⟩
      obtain ⟨b', hb', e⟩ := Option.map_eq_some_iff.1 hb
      refine ⟨b', hb', ?_⟩
      rw [← e]; split_ifs <;> rfl
  | none =>
    intro q i
    simp only [List.length_append, List.length_singleton, Nat.add_sub_cancel]
    split_ifs with hq
    · subst hq
      constructor
      · intro hi
        simp only [Option.some.injEq] at hi
        subst hi
        exact ⟨(q, [tf]), by simp, rfl⟩
      · rintro ⟨b, hb, e⟩
        rw [List.getElem?_append] at hb
        split_ifs at hb with hi
        · have := (h q i).2 ⟨b, hb, e⟩
          rw [hl] at this; cases this
        · have : i - s.primitives.length = 0 := by
            by_contra hne
            rw [List.getElem?_eq_none (by simp; omega)] at hb; cases hb
          simp only [Option.some.injEq]; omega
    · rw [h q i]
      constructor
      · rintro ⟨b, hb, e⟩
        refine ⟨b, ?_, e⟩
        rw [List.getElem?_append_left (List.getElem?_eq_some_iff.1 hb).1]; exact hb
      · rintro ⟨b, hb, e⟩
        rw [List.getElem?_append] at hb
        split_ifs at hb with hi
        · exact ⟨b, hb, e⟩
        · exfalso
          have h0 : i - s.primitives.length = 0 := by
            by_contra hne
            rw [List.getElem?_eq_none (by simp; omega)] at hb; cases hb
          rw [h0] at hb
          simp only [List.getElem?_cons_zero, Option.some.injEq] at hb
          subst hb
          exact hq e.symm

theorem flat_addPrim {s : St T} (h : Inv s) (p : Nat) (tf : List T) :
    (flat (s.addPrim p tf).primitives).Perm (flat s.primitives ++ [(p, tf)]) := by
  unfold St.addPrim
  cases hl : s.lookup p with
  | some idx =>
    obtain ⟨b, hb, rfl⟩ := (h p idx).1 hl
    exact flat_modify tf _ _ _ hb
  | none => simp [flat]

def primOf : Item × List T → Option (Nat × List T) | (.prim p, tf) => some (p, tf) | _ => none
def lightOf : Item × List T → Option (Nat × List T) | (.light p, tf) => some (p, tf) | _ => none
def unresOf : Item × List T → Option (Nat × List T) | (.unresolved p, tf) => some (p, tf) | _ => none

theorem foldl_add (items : List (Item × List T)) : ∀ s : St T, Inv s →
    Inv (items.foldl St.add s) ∧
    (flat (items.foldl St.add s).primitives).Perm (flat s.primitives ++ items.filterMap primOf) ∧
    (items.foldl St.add s).lights = s.lights ++ items.filterMap lightOf ∧
    (items.foldl St.add s).unresolved = s.unresolved ++ items.filterMap unresOf := by
  induction items with
  | nil => intro s h; simp [h]
  | cons x xs ih =>
    intro s h
    obtain ⟨i, tf⟩ := x
    cases i with
    | prim p =>
      obtain ⟨h1, h2, h3, h4⟩ := ih (s.addPrim p tf) (inv_addPrim h p tf)
      have hl : (s.addPrim p tf).lights = s.lights := by unfold St.addPrim; split <;> rfl
      have hu : (s.addPrim p tf).unresolved = s.unresolved := by unfold St.addPrim; split <;> rfl
      simp only [List.foldl_cons, St.add, List.filterMap_cons, primOf, lightOf, unresOf]
      refine ⟨h1, h2.trans ?_, by rw [h3, hl], by rw [h4, hu]⟩
      have := (flat_addPrim h p tf).append_right (xs.filterMap primOf)
      simpa [List.append_assoc] using this
    | light l =>
      obtain ⟨h1, h2, h3, h4⟩ := ih (s.addLight l tf) h
      simp only [List.foldl_cons, St.add, List.filterMap_cons, primOf, lightOf, unresOf]
      exact ⟨h1, h2, by rw [h3]; simp [St.addLight], h4⟩
    | unresolved u =>
      obtain ⟨h1, h2, h3, h4⟩ := ih (s.addUnresolved u tf) h
      simp only [List.foldl_cons, St.add, List.filterMap_cons, primOf, lightOf, unresOf]
      exact ⟨h1, h2, h3, by rw [h4]; simp [St.addUnresolved]⟩

/-- A selection of the items at the places, as the list of the places where they are. -/
theorem select_places (mul : T → T → T) (n : Node T) (sel : Item × List T → Option (Nat × List T))
    (at' : List Step → Option Nat)
    (h : ∀ q, (nodeAt n q).isSome → (place mul n q).bind sel = (at' q).map fun x => (x, transformsAt mul n q)) :
    ((nodePaths n).filterMap (place mul n)).filterMap sel =
      ((nodePaths n).filter fun q => (at' q).isSome).filterMap fun q => (at' q).map fun x => (x, transformsAt mul n q) := by
  rw [List.filterMap_filterMap, List.filterMap_filter]
  apply List.filterMap_congr
  intro q hq
  rw [h q (mem_nodePaths.1 hq)]
  cases at' q <;> simp

theorem sel_prim (mul : T → T → T) (n : Node T) (q : List Step) :
    (place mul n q).bind primOf = (primAt n q).map fun x => (x, transformsAt mul n q) := by
  unfold place itemAt primAt
  cases nodeAt n q with
  | none => rfl
  | some m => cases h : m.asset <;> simp [h, itemOf, primOf]

theorem sel_light (mul : T → T → T) (n : Node T) (q : List Step) :
    (place mul n q).bind lightOf = (lightAt n q).map fun x => (x, transformsAt mul n q) := by
  unfold place itemAt lightAt
  cases nodeAt n q with
  | none => rfl
  | some m => cases h : m.asset <;> simp [h, itemOf, lightOf]

theorem sel_unres (mul : T → T → T) (n : Node T) (q : List Step) :
    (place mul n q).bind unresOf = (unresolvedAt n q).map fun x => (x, transformsAt mul n q) := by
  unfold place itemAt unresolvedAt
  cases nodeAt n q with
  | none => rfl
  | some m => cases h : m.asset <;> simp [h, itemOf, unresOf]

/-! ## Acceleration structure -/

theorem store_self (ms : List Mapping) (id : Nat) (m : Mapping) : (store ms id m)[id]? = some m := by
  unfold store
  simp only
  rw [List.getElem?_set_self]
  split_ifs with h
  · simp; omega
  · omega

theorem store_other {ms : List Mapping} {id j : Nat} {m x : Mapping} (h : j ≠ id) (hx : ms[j]? = some x) :
    (store ms id m)[j]? = some x := by
  unfold store
  simp only
  rw [List.getElem?_set_ne h.symm]
  split_ifs with h'
  · rw [List.getElem?_append_left (List.getElem?_eq_some_iff.1 hx).1]; exact hx
  · exact hx

/-- An entry leads to its primitive or light. -/
def Good (ps : List (Nat × List (List T))) (ls : List (Nat × List T)) (ms : List Mapping) (e : Entry T) : Prop :=
  ∃ m, ms[e.id]? = some m ∧ match e.what with
    | .inl p => e.mask = 1 ∧ m.isLight = false ∧ ∃ insts, ps[m.batch]? = some (p, insts) ∧ insts[m.inst]? = some e.transforms
    | .inr l => e.mask = 2 ∧ m.isLight = true ∧ m.batch = 0 ∧ m.inst = 0 ∧ ls[m.light]? = some (l, e.transforms)

structure TInv (ids : Nat → Nat) (ps : List (Nat × List (List T))) (ls : List (Nat × List T)) (t : Tlas T) : Prop where
  ids : ∀ (k : Nat) (e : Entry T), t.entries[k]? = some e → e.id = ids k
  good : ∀ e ∈ t.entries, Good ps ls t.mappings e

theorem tinv_attach {ids : Nat → Nat} (hi : Function.Injective ids) {ps : List (Nat × List (List T))} {ls : List (Nat × List T)}
    {t : Tlas T} (h : TInv ids ps ls t) {what : Nat ⊕ Nat} {tf : List T} {mask : Nat} {m : Mapping}
    (hg : match what with
      | .inl p => mask = 1 ∧ m.isLight = false ∧ ∃ insts, ps[m.batch]? = some (p, insts) ∧ insts[m.inst]? = some tf
      | .inr l => mask = 2 ∧ m.isLight = true ∧ m.batch = 0 ∧ m.inst = 0 ∧ ls[m.light]? = some (l, tf)) :
    TInv ids ps ls (t.attach ids what tf mask m) where
  ids k e he := by
    unfold Tlas.attach at he
    simp only [List.getElem?_append] at he
    split_ifs at he with hk
    · exact h.ids k e he
    · have h0 : k - t.entries.length = 0 := by
        by_contra hne
        rw [List.getElem?_eq_none (by simp; omega)] at he; cases he
      rw [h0] at he
      simp only [List.getElem?_cons_zero, Option.some.injEq] at he
      subst he
      have : k = t.entries.length := by omega
      rw [this]
  good e he := by
    unfold Tlas.attach at he ⊢
    simp only [List.mem_append, List.mem_singleton] at he
    rcases he with he | rfl
    · obtain ⟨m', h1, h2⟩ := h.good e he
      obtain ⟨k, hk⟩ := List.getElem?_of_mem he
      refine ⟨m', store_other ?_ h1, h2⟩
      rw [h.ids k e hk]
      intro hc
      have := hi hc
      have hlt := (List.getElem?_eq_some_iff.1 hk).1
      omega
    · exact ⟨m, store_self _ _ _, hg⟩

def core (e : Entry T) : (Nat ⊕ Nat) × List T := (e.what, e.transforms)

theorem instances_spec {ids : Nat → Nat} (hi : Function.Injective ids) {ps : List (Nat × List (List T))} {ls : List (Nat × List T)}
    (b p : Nat) (insts : List (List T)) (hb : ps[b]? = some (p, insts)) : ∀ (rest : List (List T)) (i : Nat) (t : Tlas T),
    TInv ids ps ls t → (∀ j tf, rest[j]? = some tf → insts[i + j]? = some tf) →
    TInv ids ps ls (attachInstances ids b p i t rest) ∧
    (attachInstances ids b p i t rest).entries.map core = t.entries.map core ++ rest.map fun tf => (.inl p, tf)
  | [], i, t, h, _ => by simp [attachInstances, h]
  | tf :: rest, i, t, h, hr => by
    have h0 := hr 0 tf (by simp)
    have ha : TInv ids ps ls (t.attach ids (.inl p) tf maskGeometry ⟨false, b, i, 0⟩) :=
      tinv_attach hi h ⟨rfl, rfl, insts, hb, h0⟩
    obtain ⟨h1, h2⟩ := instances_spec hi b p insts hb rest (i + 1) _ ha (fun j tf' hj => by
      rw [show i + 1 + j = i + (j + 1) by omega]; exact hr (j + 1) tf' (by simpa using hj))
    refine ⟨h1, ?_⟩
    rw [attachInstances, h2]
    simp [Tlas.attach, core]

theorem batches_spec {ids : Nat → Nat} (hi : Function.Injective ids) {ps : List (Nat × List (List T))} {ls : List (Nat × List T)} :
    ∀ (rest : List (Nat × List (List T))) (b : Nat) (t : Tlas T), TInv ids ps ls t → (∀ j x, rest[j]? = some x → ps[b + j]? = some x) →
    TInv ids ps ls (attachBatches ids b t rest) ∧
    (attachBatches ids b t rest).entries.map core = t.entries.map core ++ (flat rest).map fun x => (.inl x.1, x.2)
  | [], b, t, h, _ => by simp [attachBatches, h, flat]
  | (p, insts) :: rest, b, t, h, hr => by
    have hb := hr 0 _ (List.getElem?_cons_zero ..)
    obtain ⟨h1, h2⟩ := instances_spec hi b p insts hb insts 0 t h (fun j tf hj => by simpa using hj)
    obtain ⟨h3, h4⟩ := batches_spec hi rest (b + 1) _ h1 (fun j x hj => by
      rw [show b + 1 + j = b + (j + 1) by omega]; exact hr (j + 1) x (by simpa using hj))
    refine ⟨h3, ?_⟩
    rw [attachBatches, h4, h2]
    simp [flat, Function.comp_def]

theorem lights_spec {ids : Nat → Nat} (hi : Function.Injective ids) (isSphere : Nat → Bool) {ps : List (Nat × List (List T))}
    {ls : List (Nat × List T)} : ∀ (rest : List (Nat × List T)) (i : Nat) (t : Tlas T), TInv ids ps ls t →
    (∀ j x, rest[j]? = some x → ls[i + j]? = some x) →
    TInv ids ps ls (attachLights ids isSphere i t rest) ∧
    (attachLights ids isSphere i t rest).entries.map core = t.entries.map core ++
      (rest.filter fun x => isSphere x.1 && !x.2.isEmpty).map fun x => (.inr x.1, x.2)
  | [], i, t, h, _ => by simp [attachLights, h]
  | (l, tf) :: rest, i, t, h, hr => by
    have hl := hr 0 _ (List.getElem?_cons_zero ..)
    have hrest : ∀ j x, rest[j]? = some x → ls[i + 1 + j]? = some x := fun j x hj => by
      rw [show i + 1 + j = i + (j + 1) by omega]; exact hr (j + 1) x (by simpa using hj)
    rw [attachLights]
    by_cases hs : isSphere l
    · by_cases he : tf.length = 0
      · obtain ⟨h1, h2⟩ := lights_spec hi isSphere rest (i + 1) t h hrest
        simp only [hs, Bool.not_true, Bool.false_eq_true, if_false, he, if_true]
        refine ⟨h1, ?_⟩
        rw [h2]
        have : tf = [] := List.length_eq_zero_iff.1 he
        simp [this]
      · obtain ⟨h1, h2⟩ := lights_spec hi isSphere rest (i + 1) _
          (tinv_attach (what := .inr l) (tf := tf) (mask := maskLight) (m := ⟨true, 0, 0, i⟩) hi h ⟨rfl, rfl, rfl, rfl, hl⟩) hrest
        simp only [hs, Bool.not_true, Bool.false_eq_true, if_false, he]
        refine ⟨h1, ?_⟩
        rw [h2]
        have : tf ≠ [] := fun hc => he (by simp [hc])
        simp [Tlas.attach, core, hs, this]
    · obtain ⟨h1, h2⟩ := lights_spec hi isSphere rest (i + 1) t h hrest
      simp only [hs, Bool.not_false, if_true]
      refine ⟨h1, ?_⟩
      rw [h2]
      simp [hs]

theorem tlas_spec {ids : Nat → Nat} (hi : Function.Injective ids) (isSphere : Nat → Bool) (s : St T) :
    TInv ids s.primitives s.lights (buildTlas ids isSphere s) ∧
    (buildTlas ids isSphere s).entries.map core = ((flat s.primitives).map fun x => (.inl x.1, x.2)) ++
      (s.lights.filter fun x => isSphere x.1 && !x.2.isEmpty).map fun x => (.inr x.1, x.2) := by
  have h0 : TInv ids s.primitives s.lights ({} : Tlas T) := ⟨by simp, by simp⟩
  obtain ⟨h1, h2⟩ := batches_spec hi s.primitives 0 _ h0 (fun j x hj => by simpa using hj)
  obtain ⟨h3, h4⟩ := lights_spec hi isSphere s.lights 0 _ h1 (fun j x hj => by simpa using hj)
  refine ⟨h3, ?_⟩
  rw [buildTlas, h4, h2]
  simp

/-- The places of the graph where something sits (specification): each once, and every such place. -/
structure Places (n : Node T) (at' : List Step → Option Nat) (qs : List (List Step)) : Prop where
  nodup : qs.Nodup
  complete : ∀ q, q ∈ qs ↔ (at' q).isSome

theorem places_of (n : Node T) (at' : List Step → Option Nat) (h : ∀ q, (at' q).isSome → (nodeAt n q).isSome) :
    Places n at' ((nodePaths n).filter fun q => (at' q).isSome) where
  nodup := (nodup_node n).filter _
  complete q := by
    rw [List.mem_filter, mem_nodePaths]
    exact ⟨fun h => h.2, fun hq => ⟨h q hq, hq⟩⟩

theorem primAt_some (n : Node T) (q : List Step) (h : (primAt n q).isSome) : (nodeAt n q).isSome := by
  unfold primAt at h; cases hn : nodeAt n q <;> simp_all
theorem lightAt_some (n : Node T) (q : List Step) (h : (lightAt n q).isSome) : (nodeAt n q).isSome := by
  unfold lightAt at h; cases hn : nodeAt n q <;> simp_all
theorem unresolvedAt_some (n : Node T) (q : List Step) (h : (unresolvedAt n q).isSome) : (nodeAt n q).isSome := by
  unfold unresolvedAt at h; cases hn : nodeAt n q <;> simp_all

theorem map_some_filterMap (at' : List Step → Option Nat) (g : List Step → List T) (qs : List (List Step))
    (h : ∀ q ∈ qs, (at' q).isSome) :
    (qs.filterMap fun q => (at' q).map fun x => (x, g q)).map (fun y => (some y.1, y.2)) = qs.map fun q => (at' q, g q) := by
  induction qs with
  | nil => rfl
  | cons q qs ih =>
    obtain ⟨x, hx⟩ := Option.isSome_iff_exists.1 (h q (by simp))
    have ih := ih fun q' hq' => h q' (by simp [hq'])
    simp only [List.filterMap_cons, hx, Option.map_some, List.map_cons, ih]

theorem collected (mul : T → T → T) (root : Node T) :
    (flat (collect mul {} root).primitives).Perm
      (((nodePaths root).filter fun q => (primAt root q).isSome).filterMap fun q => (primAt root q).map fun x => (x, transformsAt mul root q)) ∧
    (collect mul {} root).lights =
      ((nodePaths root).filter fun q => (lightAt root q).isSome).filterMap (fun q => (lightAt root q).map fun x => (x, transformsAt mul root q)) ∧
    (collect mul {} root).unresolved =
      ((nodePaths root).filter fun q => (unresolvedAt root q).isSome).filterMap
        (fun q => (unresolvedAt root q).map fun x => (x, transformsAt mul root q)) := by
  obtain ⟨h1, h2, h3, h4⟩ := foldl_add ((nodePaths root).filterMap (place mul root)) {} inv_init
  rw [collect_eq]
  refine ⟨?_, ?_, ?_⟩
  · rw [← select_places mul root primOf (primAt root) (fun q _ => sel_prim mul root q)]
    simpa [flat] using h2
  · rw [← select_places mul root lightOf (lightAt root) (fun q _ => sel_light mul root q)]
    simpa using h3
  · rw [← select_places mul root unresOf (unresolvedAt root) (fun q _ => sel_unres mul root q)]
    simpa using h4

theorem entry_kind {ids : Nat → Nat} {ps : List (Nat × List (List T))} {ls : List (Nat × List T)} {t : Tlas T}
    (h : TInv ids ps ls t) {e : Entry T} (he : e ∈ t.entries) : (e.mask = 1 ↔ e.what.isLeft) ∧ (e.mask = 2 ↔ e.what.isRight) := by
  obtain ⟨m, _, h2⟩ := h.good e he
  cases hw : e.what <;> rw [hw] at h2 <;> simp only at h2 <;> rw [h2.1] <;> simp

theorem filter_inl (A : List (Nat × List T)) (B : List (Nat × List T)) :
    ((A.map fun x => ((.inl x.1 : Nat ⊕ Nat), x.2)) ++ B.map fun x => ((.inr x.1 : Nat ⊕ Nat), x.2)).filter (fun x => x.1.isLeft) =
      A.map fun x => (.inl x.1, x.2) := by
  rw [List.filter_append, List.filter_eq_self.2, List.filter_eq_nil_iff.2, List.append_nil] <;> simp

theorem filter_inr (A : List (Nat × List T)) (B : List (Nat × List T)) :
    ((A.map fun x => ((.inl x.1 : Nat ⊕ Nat), x.2)) ++ B.map fun x => ((.inr x.1 : Nat ⊕ Nat), x.2)).filter (fun x => x.1.isRight) =
      B.map fun x => (.inr x.1, x.2) := by
  rw [List.filter_append, List.filter_eq_nil_iff.2, List.filter_eq_self.2, List.nil_append] <;> simp

theorem filter_core {es : List (Entry T)} (f : Nat ⊕ Nat → Bool) (k : Nat) (h : ∀ e ∈ es, (e.mask = k ↔ f e.what)) :
    (es.filter fun e => e.mask == k).map core = (es.map core).filter fun x => f x.1 := by
  rw [List.filter_map]
  congr 1
  apply List.filter_congr
  intro e he
  have := h e he
  simp only [Function.comp_def, core]
  cases hf : f e.what <;> simp_all

/-- **C99.**  The rays of a view are traced against every primitive of the scene graph, once for every place where it is instanced, in
the scene or within models at any depth, with the transforms of that place, and against nothing else but lights. -/
theorem C99_geometry (mul : T → T → T) (ids : Nat → Nat) (hi : Function.Injective ids) (isSphere : Nat → Bool) (root : Node T) :
    ∃ qs, Places root (primAt root) qs ∧
      (((buildTlas ids isSphere (collect mul {} root)).entries.filter fun e => e.mask == 1).map fun e => (e.what, e.transforms)).Perm
        ((qs.filterMap fun q => (primAt root q).map fun p => (p, transformsAt mul root q)).map fun x => (.inl x.1, x.2)) ∧
      ∀ e ∈ (buildTlas ids isSphere (collect mul {} root)).entries, e.mask = 1 ∨ e.mask = 2 := by
  obtain ⟨h1, h2⟩ := tlas_spec hi isSphere (collect mul {} root)
  refine ⟨_, places_of root (primAt root) (primAt_some root), ?_, ?_⟩
  · change (List.map core _).Perm _
    rw [filter_core Sum.isLeft 1 (fun e he => (entry_kind h1 he).1), h2, filter_inl]
    exact (collected mul root).1.map _
  · intro e he
    obtain ⟨k1, k2⟩ := entry_kind h1 he
    rw [k1, k2]
    cases e.what <;> simp

/-- **C99.**  A view has every light of the graph once for every place where it is, with the transforms of that place; the sphere lights
among them, and only those, can be hit by rays. -/
theorem C99_lights (mul : T → T → T) (ids : Nat → Nat) (hi : Function.Injective ids) (isSphere : Nat → Bool) (root : Node T) :
    ∃ qs, Places root (lightAt root) qs ∧
      (collect mul {} root).lights.map (fun x => (some x.1, x.2)) = qs.map (fun q => (lightAt root q, transformsAt mul root q)) ∧
      ((buildTlas ids isSphere (collect mul {} root)).entries.filter fun e => e.mask == 2).map (fun e => (e.what, e.transforms)) =
        ((collect mul {} root).lights.filter fun x => isSphere x.1 && !x.2.isEmpty).map fun x => (.inr x.1, x.2) := by
  obtain ⟨h1, h2⟩ := tlas_spec hi isSphere (collect mul {} root)
  have hp := places_of root (lightAt root) (lightAt_some root)
  refine ⟨_, hp, ?_, ?_⟩
  · rw [(collected mul root).2.1]
    exact map_some_filterMap _ _ _ fun q hq => (hp.complete q).1 hq
  · change List.map core _ = _
    rw [filter_core Sum.isRight 2 (fun e he => (entry_kind h1 he).2), h2, filter_inr]

/-- **C99.**  A view has every unresolved object of the graph once for every place where it is, with the transforms of that place. -/
theorem C99_unresolved (mul : T → T → T) (root : Node T) :
    ∃ qs, Places root (unresolvedAt root) qs ∧
      (collect mul {} root).unresolved.map (fun x => (some x.1, x.2)) = qs.map (fun q => (unresolvedAt root q, transformsAt mul root q)) := by
  have hp := places_of root (unresolvedAt root) (unresolvedAt_some root)
  refine ⟨_, hp, ?_⟩
  rw [(collected mul root).2.2]
  exact map_some_filterMap _ _ _ fun q hq => (hp.complete q).1 hq

/-- **C99.**  A hit on a primitive leads back to that primitive and to the transforms it was traced with; a hit on a sphere light leads
back to that light; different instances have different identifiers. -/
theorem C99_resolve (mul : T → T → T) (ids : Nat → Nat) (hi : Function.Injective ids) (isSphere : Nat → Bool) (root : Node T) :
    let s := collect mul {} root
    let t := buildTlas ids isSphere s
    (t.entries.map Entry.id).Nodup ∧ ∀ e ∈ t.entries,
      (e.mask = 1 → ∃ p, e.what = .inl p ∧ resolveInstance s t e.id = some (p, e.transforms) ∧ resolveLight s t e.id = none) ∧
      (e.mask = 2 → ∃ l, e.what = .inr l ∧ resolveLight s t e.id = some (l, e.transforms)) := by
  intro s t
  obtain ⟨h1, h2⟩ := tlas_spec hi isSphere s
  refine ⟨?_, fun e he => ?_⟩
  · rw [List.nodup_iff_getElem?_ne_getElem?]
    intro i j hij hj heq
    simp only [List.length_map] at hj
    have hi' : i < t.entries.length := hij.trans hj
    rw [List.getElem?_map, List.getElem?_map, List.getElem?_eq_getElem hi', List.getElem?_eq_getElem hj] at heq
    simp only [Option.map_some, Option.some.injEq] at heq
    rw [h1.ids i _ (List.getElem?_eq_getElem hi'), h1.ids j _ (List.getElem?_eq_getElem hj)] at heq
    exact hij.ne (hi heq)
  · obtain ⟨m, hm, hg⟩ := h1.good e he
    cases hw : e.what with
    | inl p =>
      rw [hw] at hg
      obtain ⟨g1, g2, insts, g3, g4⟩ := hg
      refine ⟨fun _ => ⟨p, rfl, ?_, ?_⟩, fun h => absurd (g1.symm.trans h) (by decide)⟩
      · simp only [resolveInstance, t, s, hm, Option.bind_eq_bind, Option.bind_some, g3, g4]; rfl
      · simp only [resolveLight, t, s, hm, Option.bind_eq_bind, Option.bind_some, g2]; rfl
    | inr l =>
      rw [hw] at hg
      obtain ⟨g1, g2, _, _, g3⟩ := hg
      refine ⟨fun h => absurd (g1.symm.trans h) (by decide), fun _ => ⟨l, rfl, ?_⟩⟩
      simp only [resolveLight, t, s, hm, Option.bind_eq_bind, Option.bind_some, g2, g3, if_true]

/-! ## Examples and findings -/

/-- A scene with a primitive in the scene, the same primitive twice in a model instanced twice, and two sphere lights. -/
def exampleModel : Node Nat := .mk [] 2 .none [.mk [] 3 (.prim 7) [], .mk [] 5 (.prim 7) [], .mk [] 6 .camera []]
def exampleScene : Node Nat := .mk [0] 1 .none
  [.mk [10] 1 (.prim 7) [], .mk [20] 1 (.model exampleModel) [.mk [30] 1 (.light 4) []], .mk [40] 1 (.model exampleModel) [],
   .mk [50] 1 (.prim 8) [], .mk [60] 1 (.light 4) [], .mk [70] 1 (.unresolved 9) []]

/-- Non-vacuity: places in models exist, with composed transforms. -/
example : primAt exampleScene [.child 1, .into, .child 0] = some 7 ∧
    transformsAt (· * ·) exampleScene [.child 1, .into, .child 0] = [120] ∧
    (collect (· * ·) {} exampleScene).primitives = [(7, [[10], [120], [200], [240], [400]]), (8, [[50]])] ∧
    (collect (· * ·) {} exampleScene).lights = [(4, [30]), (4, [60])] ∧
    (collect (· * ·) {} exampleScene).unresolved = [(9, [70])] := by
  refine ⟨rfl, rfl, rfl, rfl, rfl⟩

/-- **C99, hits in full**: any hit of a view's rays can be resolved to what was hit. -/
def C99_hits_full : Prop := ∀ (root : Node Nat) (isSphere : Nat → Bool) (e : Entry Nat),
  let s := collect (· * ·) {} root
  let t := buildTlas id isSphere s
  e ∈ t.entries → ∃ p, e.what = .inl p ∧ resolveInstance s t e.id = some (p, e.transforms)

/-- **C99, hits, violated.**  Resolving a hit on a sphere light reads the first batch: in a scene without primitives out of range, in a
scene with primitives it reports the first of them. -/
theorem C99_hits_violated : ¬ C99_hits_full ∧
    (let s := collect (· * ·) {} (Node.mk [1] 1 (.light 4) [])
     let t := buildTlas id (fun _ => true) s
     t.entries.length = 1 ∧ resolveInstance s t 0 = none) ∧
    (let s := collect (· * ·) {} (Node.mk [1] 1 (.light 4) [.mk [2] 1 (.prim 7) []])
     let t := buildTlas id (fun _ => true) s
     (t.entries.map fun e => (e.id, e.what)) = [(0, .inl 7), (1, .inr 4)] ∧ resolveInstance s t 1 = some (7, [2])) := by
  refine ⟨fun h => ?_, ⟨rfl, rfl⟩, ⟨rfl, rfl⟩⟩
  obtain ⟨p, h1, _⟩ := h (Node.mk [1] 1 (.light 4) []) (fun _ => true) ⟨0, .inr 4, [1], 2⟩ (List.mem_singleton.2 rfl)
  cases h1

/-- **C99, irradiance in full**: every instance of an unresolved object is rendered with the irradiance of its own place. -/
def C99_irradiance_full : Prop := ∀ (f : Nat → List Nat → Option Nat) (us : List (Nat × List Nat)) irr,
  resolveAll f (fun _ => none) us = some irr → ∀ x ∈ us, instanceIrradiance irr x.1 = f x.1 x.2

theorem resolveAll_spec {E : Type} (f : Nat → List T → Option E) : ∀ (us : List (Nat × List T)) (irr0 irr : Nat → Option E),
    resolveAll f irr0 us = some irr →
    (∀ k, (∀ x ∈ us, x.1 ≠ k) → irr k = irr0 k) ∧
    (∀ pre x post, us = pre ++ x :: post → (∀ y ∈ post, y.1 ≠ x.1) → irr x.1 = f x.1 x.2 ∧ (f x.1 x.2).isSome)
  | [], irr0, irr, h => by
    simp only [resolveAll, Option.some.injEq] at h
    subst h
    refine ⟨fun _ _ => rfl, fun pre x post hx => ?_⟩
    simp at hx
  | (u, tf) :: rest, irr0, irr, h => by
    rw [resolveAll] at h
    cases hf : f u tf with
    | none => rw [hf] at h; cases h
    | some e =>
      rw [hf] at h
      obtain ⟨h1, h2⟩ := resolveAll_spec f rest _ irr h
      refine ⟨fun k hk => ?_, fun pre x post hx hp => ?_⟩
      · rw [h1 k fun x hx => hk x (by simp [hx])]
        have := hk (u, tf) (by simp)
        simp only at this
        rw [if_neg (fun hc => this hc.symm)]
      · cases pre with
        | nil =>
          simp only [List.nil_append, List.cons.injEq] at hx
          obtain ⟨rfl, rfl⟩ := hx
          simp only
          rw [h1 u fun y hy => hp y hy]
          simp [hf]
        | cons y pre =>
          simp only [List.cons_append, List.cons.injEq] at hx
          exact h2 pre x post hx.2 hp

/-- **C99.**  An unresolved object instanced once is rendered with the irradiance of its place; one with several instances with the
irradiance of the last of them, at all of them; nothing is rendered when any of them throws. -/
theorem C99_irradiance_partial {E : Type} (f : Nat → List T → Option E) (us : List (Nat × List T)) :
    (∀ irr, resolveAll f (fun _ => none) us = some irr → ∀ pre x post, us = pre ++ x :: post → (∀ y ∈ post, y.1 ≠ x.1) →
      ∀ y ∈ us, y.1 = x.1 → instanceIrradiance irr y.1 = f x.1 x.2) ∧
    (resolveAll f (fun _ => none) us = none ↔ ∃ x ∈ us, f x.1 x.2 = none) := by
  refine ⟨fun irr h pre x post hx hp y _ hy => ?_, ?_⟩
  · rw [hy]; exact ((resolveAll_spec f us _ irr h).2 pre x post hx hp).1
  · have : ∀ (us : List (Nat × List T)) irr0, resolveAll f irr0 us = none ↔ ∃ x ∈ us, f x.1 x.2 = none := by
      intro us
      induction us with
      | nil => simp [resolveAll]
      | cons x us ih =>
        intro irr0
        obtain ⟨u, tf⟩ := x
        rw [resolveAll]
        cases hf : f u tf with
        | none => simp [hf]
        | some e =>
          simp only [List.mem_cons, exists_eq_or_imp, hf, reduceCtorEq, false_or]
          exact ih _
    exact this us _

/-- **C99, irradiance, violated.**  Two instances of one object at different places are both rendered as the second. -/
theorem C99_irradiance_violated : ¬ C99_irradiance_full := by
  intro h
  have := h (fun _ tf => tf[0]?) [(9, [1]), (9, [2])] _ rfl (9, [1]) (by simp)
  simp [instanceIrradiance] at this

/-- **C99, illumination.**  An unresolved object is lit by its light's instance when the light has one; when the light is instanced at
several places it is the first place in the traversal order, whichever instance the object was given. -/
theorem C99_illumination_partial (mul : T → T → T) (root : Node T) (q : List Step) (l : Nat) (hq : lightAt root q = some l)
    (hu : ∀ q', lightAt root q' = some l → q' = q) :
    lightFor (collect mul {} root).lights l = some (l, transformsAt mul root q) := by
  obtain ⟨qs, hp, h, -⟩ := C99_lights mul id Function.injective_id (fun _ => true) root
  unfold lightFor
  have hmem : (some l, transformsAt mul root q) ∈ (collect mul {} root).lights.map (fun x => (some x.1, x.2)) := by
    rw [h]
    exact List.mem_map.2 ⟨q, (hp.complete q).2 (by simp [hq]), by rw [hq]⟩
  have hall : ∀ x ∈ (collect mul {} root).lights, x.1 = l → x = (l, transformsAt mul root q) := by
    intro x hx hl
    have : (some x.1, x.2) ∈ qs.map (fun q => (lightAt root q, transformsAt mul root q)) := by
      rw [← h]; exact List.mem_map.2 ⟨x, hx, rfl⟩
    obtain ⟨q', _, e⟩ := List.mem_map.1 this
    simp only [Prod.mk.injEq] at e
    have := hu q' (by rw [e.1, hl])
    subst this
    rw [e.2, ← hl]
  obtain ⟨x, hx, e⟩ := List.mem_map.1 hmem
  simp only [Prod.mk.injEq, Option.some.injEq] at e
  cases hf : (collect mul {} root).lights.find? (fun x => x.1 == l) with
  | none =>
    rw [List.find?_eq_none] at hf
    exact absurd (hf x hx) (by simp [e.1])
  | some y =>
    have h1 := List.find?_some hf
    have h2 := List.mem_of_find?_eq_some hf
    rw [hall y h2 (by simpa using h1)]

/-- **C99, illumination, violated.**  With the light at two places, an object given the second is lit from the first. -/
theorem C99_illumination_violated : ¬ ∀ (root : Node Nat) (q : List Step) (l : Nat), lightAt root q = some l →
    lightFor (collect (· * ·) {} root).lights l = some (l, transformsAt (· * ·) root q) := by
  intro h
  have := h exampleScene [.child 4] 4 rfl
  simp [lightFor, exampleScene, exampleModel, collect, collectList, handle, modelNode, modelList, St.addPrim, St.addLight,
    St.addUnresolved, transformsAt, Node.children, Node.apparent] at this

end Huira.Collect
