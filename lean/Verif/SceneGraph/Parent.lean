import Verif.SceneGraph.Props

/-!
# Finding the parent of a node (C132)

Models `Node::get_parent` and `Node::get_parent_as` (`node.ipp` 779-835) with `Scene::find_node_shared_ptr_` and
`Scene::find_node_in_tree_` (`scene.ipp` 1348-1398) on the scene graph of `SceneGraph/Model`.
-/
set_option linter.unusedSimpArgs false
namespace Huira.SceneGraph
variable {V S : Type}

/-- `find_node_in_tree_` (`scene.ipp` 1371-1398): depth first.  `fuel` bounds the depth of the recursion. -/
def findTree (g : Graph V S) (target : Nat) : Nat → Nat → Option Nat
  | 0, _ => none
  | fuel + 1, n =>
    if n = target then some n
    else (g.node n).children.findSome? fun c => if c = target then some c else findTree g target fuel c

/-- `find_node_shared_ptr_` (`scene.ipp` 1348-1359). -/
def findShared (g : Graph V S) (target : Nat) : Option Nat :=
  if 0 = target then some 0 else findTree g target g.count 0

/-- `get_parent` (`node.ipp` 779-795). -/
def getParent (g : Graph V S) (n : Nat) : Got Nat :=
  match (g.node n).parent with
  | none => .throw
  | some p => match findShared g p with
    | none => .throw
    | some r => .val r

/-- The node types a caller can name. -/
inductive Ty where
  | node | frame | instance
deriving DecidableEq

/-- `dynamic_cast<TParentNode*>`. -/
def isA (x : Node V S) : Ty → Bool
  | .node => true
  | .frame => x.isFrame
  | .instance => !x.isFrame

/-- `get_parent_as<TParentNode>` (`node.ipp` 808-834). -/
def getParentAs (g : Graph V S) (n : Nat) (t : Ty) : Got Nat :=
  match (g.node n).parent with
  | none => .throw
  | some p =>
    if isA (g.node p) t then
      match findShared g p with
      | none => .throw
      | some r => if isA (g.node r) t then .val r else .throw
    else .throw

/-! ### The search -/

theorem findTree_sound {g : Graph V S} {t : Nat} : ∀ fuel n r, findTree g t fuel n = some r → r = t := by
  intro fuel
  induction fuel with
  | zero => intro n r h; simp [findTree] at h
  | succ k ih =>
    intro n r h
    rw [findTree] at h
    split at h
    · next e => rw [← Option.some.inj h]; exact e
    · obtain ⟨c, _, hc⟩ := List.exists_of_findSome?_eq_some h
      split at hc
      · next e => rw [← Option.some.inj hc]; exact e
      · exact ih c r hc

theorem below_lt {g : Graph V S} (hw : WF g) {n t : Nat} (h : Below g n t) : n < t := by
  induction h with
  | child h1 h2 => exact (hw.up _ _ h1 h2).1
  | deeper _ h2 h3 ih => exact Nat.lt_trans ih (hw.up _ _ h2 h3).1

theorem findTree_complete {g : Graph V S} (hw : WF g) {t : Nat} : ∀ fuel n, t < fuel + n → (n = t ∨ Below g n t) →
    findTree g t fuel n = some t := by
  intro fuel
  induction fuel with
  | zero =>
    intro n h hb
    rcases hb with rfl | hb
    · omega
    · have := below_lt hw hb; omega
  | succ k ih =>
    intro n h hb
    rw [findTree]
    split
    · next e => rw [e]
    · next hne =>
      have hb : Below g n t := hb.resolve_left hne
      obtain ⟨c, hc, hp, hct⟩ := hb.split
      have hmem := (hw.up c n hc hp)
      have hval : (if c = t then some c else findTree g t k c) = some t := by
        split
        · next e => rw [e]
        · next e =>
          refine ih c (by omega) ?_
          rcases hct with rfl | hct
          · exact absurd rfl e
          · exact Or.inr hct
      cases hf : (g.node n).children.findSome? (fun c => if c = t then some c else findTree g t k c) with
      | none =>
        have := List.findSome?_eq_none_iff.1 hf c hmem.2
        rw [hval] at this; cases this
      | some r =>
        obtain ⟨c', _, hc'⟩ := List.exists_of_findSome?_eq_some hf
        split at hc'
        · next e => rw [← Option.some.inj hc', e]
        · rw [findTree_sound _ _ _ hc']

theorem findShared_eq {g : Graph V S} (hw : WF g) {t : Nat} (ht : t < g.count) : findShared g t = some t := by
  unfold findShared
  split
  · next e => rw [e]
  · next e =>
    exact findTree_complete hw _ _ (by omega) (Or.inr (below_root hw t ht (fun h => e h.symm)))

/-! ### The shape of the graph under calls -/

/-- Same nodes with the same parents, types and children. -/
structure Shape (g h : Graph V S) : Prop where
  count : h.count = g.count
  parent : ∀ i, (h.node i).parent = (g.node i).parent
  isFrame : ∀ i, (h.node i).isFrame = (g.node i).isFrame
  children : ∀ i, (h.node i).children = (g.node i).children

theorem Shape.refl (g : Graph V S) : Shape g g := ⟨rfl, fun _ => rfl, fun _ => rfl, fun _ => rfl⟩

theorem shape_set (g : Graph V S) (n : Nat) (x : Node V S) (hp : x.parent = (g.node n).parent) (hf : x.isFrame = (g.node n).isFrame)
    (hc : x.children = (g.node n).children) : Shape g (g.set n x) := by
  refine ⟨rfl, fun i => ?_, fun i => ?_, fun i => ?_⟩ <;> simp only [Graph.set] <;> split
  · next e => subst e; exact hp
  · rfl
  · next e => subst e; exact hf
  · rfl
  · next e => subst e; exact hc
  · rfl

theorem shape_setSpice (g : Graph V S) (n : Nat) (o f : S) : Shape g (setSpice g n o f).1 := by
  unfold setSpice
  split
  · exact .refl g
  · split
    · exact .refl g
    · exact shape_set g n _ rfl rfl rfl

/-- A call keeps the shape, or adds one child to a frame. -/
theorem step_shape (d : Local V) {g : Graph V S} (hw : WF g) (op : Op V S) :
    Shape g (step d g op).1 ∨ ∃ p f a, frameOk g p = true ∧ Shape (addChild d g p f a) (step d g op).1 := by
  cases op <;> simp only [step]
  case newSubframe p =>
    split
    · next hf => exact Or.inr ⟨p, true, none, hf, .refl _⟩
    · exact Or.inl (.refl g)
  case newInstance p a =>
    split
    · next hf => exact Or.inr ⟨p, false, some a, hf, .refl _⟩
    · exact Or.inl (.refl g)
  case newSpiceSubframe p o f =>
    split
    · next hf =>
      have h := shape_setSpice (addChild d g p true none) g.count o f
      refine Or.inr ⟨p, true, none, hf, ?_⟩
      split <;> next e => rw [e] at h; exact h
    · exact Or.inl (.refl g)
  case deleteChild p c =>
    split
    · next hf => simp [nodeOk] at hf; rw [deleteChild_throws hw p c hf.2]; exact Or.inl (.refl g)
    · exact Or.inl (.refl g)
  case setSpice n o f =>
    split
    · exact Or.inl (shape_setSpice g n o f)
    · exact Or.inl (.refl g)
  all_goals
    left
    split
    · exact .refl g
    · exact shape_set g _ _ rfl rfl rfl

theorem addChild_parent (d : Local V) (g : Graph V S) (p : Nat) (f : Bool) (a : Option Nat) (i : Nat) :
    ((addChild d g p f a).node i).parent = if i = g.count then some p else (g.node i).parent := by
  rw [addChild_node]
  by_cases h : i = g.count
  · simp [h, freshNode]
  · by_cases h2 : i = p
    · subst h2; simp [h]
    · simp [h, h2]

theorem addChild_isFrame (d : Local V) (g : Graph V S) (p : Nat) (f : Bool) (a : Option Nat) (i : Nat) :
    ((addChild d g p f a).node i).isFrame = if i = g.count then f else (g.node i).isFrame := by
  rw [addChild_node]
  by_cases h : i = g.count
  · simp [h, freshNode]
  · by_cases h2 : i = p
    · subst h2; simp [h]
    · simp [h, h2]

/-- Old nodes keep parent and type, and stay. -/
theorem step_keeps (d : Local V) {g : Graph V S} (hw : WF g) (op : Op V S) :
    g.count ≤ (step d g op).1.count ∧ ∀ c, c < g.count → ((step d g op).1.node c).parent = (g.node c).parent ∧
      ((step d g op).1.node c).isFrame = (g.node c).isFrame := by
  rcases step_shape d hw op with h | ⟨p, f, a, _, h⟩
  · exact ⟨Nat.le_of_eq h.count.symm, fun c _ => ⟨h.parent c, h.isFrame c⟩⟩
  · refine ⟨by rw [h.count]; exact Nat.le_succ _, fun c hc => ?_⟩
    rw [h.parent, h.isFrame, addChild_parent, addChild_isFrame]
    simp [Nat.ne_of_lt hc]

/-- Parents are frames. -/
theorem Reach.frames {d : Local V} {a b : S} {ok} {g : Graph V S} (h : Reach d a b ok g) :
    ∀ c p, c < g.count → (g.node c).parent = some p → (g.node p).isFrame = true := by
  induction h with
  | init => intro c p hc hp; simp [initGraph, freshNode] at hp
  | @step g op hr _ ih =>
    have hw := hr.wf
    intro c p hc hp
    rcases step_shape d hw op with hs | ⟨q, f, as, hf, hs⟩
    · rw [hs.parent] at hp; rw [hs.count] at hc; rw [hs.isFrame]; exact ih c p hc hp
    · rw [hs.parent, addChild_parent] at hp
      rw [hs.isFrame, addChild_isFrame]
      simp only [frameOk, Bool.and_eq_true, decide_eq_true_eq] at hf
      by_cases e : c = g.count
      · simp only [e, if_true, Option.some.injEq] at hp
        subst hp
        rw [if_neg (by omega)]; exact hf.2
      · rw [if_neg e] at hp
        have hc' : c < g.count := by
          rw [hs.count] at hc
          have : (addChild d g q f as).count = g.count + 1 := rfl
          omega
        have := hw.up c p hc' hp
        rw [if_neg (by omega)]; exact ih c p hc' hp

/-- What can follow a state: any further calls. -/
inductive After (d : Local V) : Graph V S → Graph V S → Prop
  | refl (g) : After d g g
  | step {g h} (op) : After d g h → After d g (step d h op).1

theorem After.keeps {d : Local V} {g h : Graph V S} (hw : WF g) (ha : After d g h) : WF h ∧ g.count ≤ h.count ∧
    ∀ c, c < g.count → (h.node c).parent = (g.node c).parent ∧ (h.node c).isFrame = (g.node c).isFrame := by
  induction ha with
  | refl => exact ⟨hw, Nat.le_refl _, fun _ _ => ⟨rfl, rfl⟩⟩
  | step op _ ih =>
    obtain ⟨h1, h2, h3⟩ := ih
    have hs := step_keeps d h1 op
    refine ⟨wf_step d h1 op, Nat.le_trans h2 hs.1, fun c hc => ?_⟩
    have h4 := hs.2 c (Nat.lt_of_lt_of_le hc h2)
    exact ⟨h4.1.trans (h3 c hc).1, h4.2.trans (h3 c hc).2⟩

theorem After.reach {d : Local V} {a b : S} {g h : Graph V S} (hr : Reach d a b Any g) (ha : After d g h) : Reach d a b Any h := by
  induction ha with
  | refl => exact hr
  | step op _ ih => exact .step ih trivial

/-! ### C132 -/

/-- The calls that make a node under `p`. -/
def Creates (p : Nat) : Op V S → Prop
  | .newSubframe q => q = p
  | .newSpiceSubframe q _ _ => q = p
  | .newInstance q _ => q = p
  | _ => False

/-- **C132.**  A node made under a frame has that frame as its parent ever after: whatever was called before and is called
later, `get_parent` on it returns the frame it was made under, and so does `get_parent_as` asking for a frame or for any
node; asking for an instance throws. -/
theorem C132_created (d : Local V) (a b : S) (g h : Graph V S) (hr : Reach d a b Any g) (op : Op V S) (p n : Nat) (hop : Creates p op)
    (hc : (step d g op).2 = .created n) (ha : After d (step d g op).1 h) :
    getParent h n = .val p ∧ getParentAs h n .frame = .val p ∧ getParentAs h n .node = .val p ∧ getParentAs h n .instance = .throw := by
  have hr' : Reach d a b Any (step d g op).1 := .step hr trivial
  have hw' := hr'.wf
  -- the new node
  have new : n < (step d g op).1.count ∧ ((step d g op).1.node n).parent = some p := by
    cases op with
    | newSubframe q =>
      simp only [Creates] at hop; subst hop
      simp only [step] at hc ⊢
      split at hc
      · next hf => rw [if_pos hf]; cases hc; exact ⟨Nat.lt_succ_self _, by rw [addChild_parent]; simp⟩
      · cases hc
    | newInstance q as =>
      simp only [Creates] at hop; subst hop
      simp only [step] at hc ⊢
      split at hc
      · next hf => rw [if_pos hf]; cases hc; exact ⟨Nat.lt_succ_self _, by rw [addChild_parent]; simp⟩
      · cases hc
    | newSpiceSubframe q o f =>
      simp only [Creates] at hop; subst hop
      simp only [step] at hc ⊢
      split at hc
      · next hf =>
        rw [if_pos hf]
        have hs := shape_setSpice (addChild d g q true none) g.count o f
        have e : n = g.count := by
          split at hc
          · cases hc; rfl
          · cases hc
        subst e
        have : g.count < (setSpice (addChild d g q true none) g.count o f).1.count ∧
            ((setSpice (addChild d g q true none) g.count o f).1.node g.count).parent = some q := by
          rw [hs.count, hs.parent, addChild_parent]; exact ⟨Nat.lt_succ_self _, by simp⟩
        split <;> next e => rw [e] at this; exact this
      · cases hc
    | _ => exact absurd hop (by simp [Creates])
  obtain ⟨hw, hcnt, hk⟩ := After.keeps hw' ha
  have hpar : (h.node n).parent = some p := by rw [(hk n new.1).1, new.2]
  have hn : n < h.count := Nat.lt_of_lt_of_le new.1 hcnt
  have hlt := (hw.up n p hn hpar).1
  have hfs := findShared_eq hw (t := p) (by omega)
  have hframe := (After.reach hr' ha).frames n p hn hpar
  refine ⟨?_, ?_, ?_, ?_⟩
  · simp only [getParent, hpar, hfs]
  · simp only [getParentAs, hpar, hfs, isA, hframe, if_true]
  · simp only [getParentAs, hpar, hfs, isA, if_true]
  · simp [getParentAs, hpar, isA, hframe]

/-- **C132.**  The root has no parent: asking for it throws, in every reachable scene; every other node has one. -/
theorem C132_root (d : Local V) (a b : S) (g : Graph V S) (hr : Reach d a b Any g) (t : Ty) :
    getParent g 0 = .throw ∧ getParentAs g 0 t = .throw ∧ ∀ n, n < g.count → n ≠ 0 → ∃ p, getParent g n = .val p ∧ p < g.count := by
  have hw := hr.wf
  refine ⟨by simp only [getParent, hw.root], by simp only [getParentAs, hw.root], fun n hn h0 => ?_⟩
  obtain ⟨p, hp⟩ := hw.nonroot n hn h0
  have hlt := (hw.up n p hn hp).1
  exact ⟨p, by simp only [getParent, hp, findShared_eq hw (t := p) (by omega)], by omega⟩

/-- Asking for the parent `k` times in a row. -/
def climb (g : Graph V S) : Nat → Nat → Got Nat
  | 0, n => .val n
  | k + 1, n => match getParent g n with
    | .throw => .throw
    | .val p => climb g k p

/-- **C132.**  Climbing from any node arrives at the root after a number of steps below the number of nodes, and never
comes back to a node it has left. -/
theorem C132_climb (d : Local V) (a b : S) (g : Graph V S) (hr : Reach d a b Any g) (n : Nat) (hn : n < g.count) :
    (∃ k, k < g.count ∧ climb g k n = .val 0) ∧ ∀ k, 0 < k → climb g k n ≠ .val n := by
  have hw := hr.wf
  have stepDown : ∀ m p, m < g.count → getParent g m = .val p → p < m := by
    intro m p hm h
    by_cases h0 : m = 0
    · subst h0; rw [(C132_root d a b g hr .node).1] at h; cases h
    · obtain ⟨q, hq⟩ := hw.nonroot m hm h0
      have := (hw.up m q hm hq).1
      simp only [getParent, hq, findShared_eq hw (t := q) (by omega)] at h
      cases h; exact this
  constructor
  · have : ∀ m, m < g.count → ∃ k, k ≤ m ∧ climb g k m = .val 0 := by
      intro m
      induction m using Nat.strongRecOn with
      | ind m ih =>
        intro hm
        by_cases h0 : m = 0
        · exact ⟨0, by omega, by rw [climb, h0]⟩
        · obtain ⟨p, hp, hpc⟩ := (C132_root d a b g hr .node).2.2 m hm h0
          have hlt := stepDown m p hm hp
          obtain ⟨k, hk, hc⟩ := ih p hlt hpc
          exact ⟨k + 1, by omega, by rw [climb, hp]; exact hc⟩
    obtain ⟨k, hk, hc⟩ := this n hn
    exact ⟨k, by omega, hc⟩
  · have : ∀ k m r, m < g.count → climb g k m = .val r → r ≤ m ∧ (0 < k → r < m) := by
      intro k
      induction k with
      | zero => intro m r _ h; rw [climb] at h; cases h; exact ⟨Nat.le_refl _, fun h => absurd h (Nat.lt_irrefl _)⟩
      | succ k ih =>
        intro m r hm h
        rw [climb] at h
        cases hg : getParent g m with
        | throw => rw [hg] at h; cases h
        | val p =>
          rw [hg] at h
          have hlt := stepDown m p hm hg
          have := (ih p r (by omega) h).1
          omega
    intro k hk h
    have := (this k n n hn h).2 hk
    omega

/-- The frame 2 in the frame 1, an instance in it; then things move. -/
example (d : Local V) (a b : S) (v : V) :
    let g := (step d (step d (initGraph d a b) (.newSubframe 0)).1 (.newSubframe 1)).1
    let h := (step d (step d (step d g (.newInstance 2 7)).1 (.setPosition 1 v)).1 (.newSpiceSubframe 0 a b)).1
    getParent h 3 = .val 2 ∧ getParentAs h 3 .frame = .val 2 ∧ getParentAs h 3 .node = .val 2 ∧ getParentAs h 3 .instance = .throw := by
  intro g h
  exact C132_created d a b g h (.step (.step .init trivial) trivial) (.newInstance 2 7) 2 3 rfl rfl (.step _ (.step _ (.refl _)))

end Huira.SceneGraph
