import Verif.SceneGraph.Lemmas
/-!
# Property theorems C05, C06, C07, C09 (scene graph)

`Reach ok g`: `g` is reached from a fresh scene by API calls, successful or throwing, each of which satisfied
the side condition `ok` in the state it was made in.
-/
set_option linter.unusedSimpArgs false
namespace Huira.SceneGraph
variable {V S : Type}

inductive Reach (d : Local V) (ssb j2000 : S) (ok : Graph V S → Op V S → Prop) : Graph V S → Prop
  | init : Reach d ssb j2000 ok (initGraph d ssb j2000)
  | step {g op} : Reach d ssb j2000 ok g → ok g op → Reach d ssb j2000 ok (step d g op).1

/-- No side condition: every history. -/
def Any : Graph V S → Op V S → Prop := fun _ _ => True

theorem Reach.wf {d : Local V} {a b : S} {ok} {g : Graph V S} (h : Reach d a b ok g) : WF g := by
  induction h with
  | init => exact wf_init d a b
  | step _ _ ih => exact wf_step d ih _

/-! ### C05 -/

/-- Every SPICE-positioned (resp. SPICE-rotated) node has a SPICE-positioned (resp. -rotated) parent. -/
def SpiceConsistent (g : Graph V S) : Prop :=
  ∀ c p, c < g.count → (g.node c).parent = some p →
    ((g.node c).posMode = .spice → (g.node p).posMode = .spice) ∧
    ((g.node c).rotMode = .spice → (g.node p).rotMode = .spice)

/-- C05 in full. -/
def C05_full (d : Local V) (a b : S) : Prop := ∀ g, Reach d a b Any g → SpiceConsistent g

/-- The code violates C05: a callback can be installed on a frame that has a SPICE child (node.ipp 286-339). -/
theorem C05_violated (d : Local V) (a b : S) : ¬ C05_full d a b := by
  intro h
  let g0 := initGraph d a b
  let g1 := (step d g0 (.newSubframe 0)).1
  let g2 := (step d g1 (.setSpice 1 a b)).1
  let g3 := (step d g2 (.newSubframe 1)).1
  let g4 := (step d g3 (.setSpice 2 a b)).1
  let g5 := (step d g4 (.setPositionCallback 1)).1
  have hr : Reach d a b Any g5 :=
    .step (.step (.step (.step (.step .init trivial) trivial) trivial) trivial) trivial
  have h5 := (h g5 hr 2 1 (show 2 < 3 by decide) (by rfl)).1 (by rfl)
  have : (g5.node 1).posMode = .positionCallback := rfl
  rw [this] at h5
  exact absurd h5 (by decide)

/-- Side condition: a callback is only installed on a node none of whose children is SPICE-driven in the
component(s) it takes over. Everything else is unrestricted. -/
def CallbackGuard (g : Graph V S) : Op V S → Prop
  | .setPositionCallback n => ∀ c, c < g.count → (g.node c).parent = some n → (g.node c).posMode ≠ .spice
  | .setRotationCallback n => ∀ c, c < g.count → (g.node c).parent = some n → (g.node c).rotMode ≠ .spice
  | .setStateCallback n => ∀ c, c < g.count → (g.node c).parent = some n →
      (g.node c).posMode ≠ .spice ∧ (g.node c).rotMode ≠ .spice
  | _ => True

theorem spiceUp_step_pos (d : Local V) {g : Graph V S} (h : WF g) (hs : SpiceUp Node.posMode g) (op : Op V S)
    (hg : CallbackGuard g op) : SpiceUp Node.posMode (step d g op).1 := by
  have hset : ∀ (g : Graph V S) n o f, WF g → SpiceUp Node.posMode g → SpiceUp Node.posMode (setSpice g n o f).1 := by
    intro g n o f h hs
    unfold setSpice
    split
    · exact hs
    · next hc =>
      simp at hc
      split
      · exact hs
      · exact spiceUp_set h hs n _ rfl (Or.inr (Or.inl ⟨rfl, canBe_pos hc⟩))
  cases op <;> simp only [step]
  case newSubframe p =>
    split
    · next hf =>
      simp [frameOk] at hf
      exact spiceUp_addChild h hs d p _ _ hf.1 (by simp [freshNode]) (fun _ _ => rfl)
    · exact hs
  case newSpiceSubframe p o f =>
    split
    · next hf =>
      simp [frameOk] at hf
      have hw := hset _ g.count o f (wf_addChild h d p true none hf.1)
        (spiceUp_addChild h hs d p true none hf.1 (by simp [freshNode]) (fun _ _ => rfl))
      split <;> next e => rw [e] at hw; exact hw
    · exact hs
  case newInstance p a =>
    split
    · next hf =>
      simp [frameOk] at hf
      exact spiceUp_addChild h hs d p _ _ hf.1 (by simp [freshNode]) (fun _ _ => rfl)
    · exact hs
  case deleteChild p c =>
    split
    · next hf => simp [nodeOk] at hf; rw [deleteChild_throws h p c hf.2]; exact hs
    · exact hs
  case setSpice n o f =>
    split
    · exact hset g n o f h hs
    · exact hs
  case setPosition n v =>
    split
    · exact hs
    · next hc =>
      simp at hc
      exact spiceUp_set h hs n _ rfl (Or.inr (Or.inr ⟨by simp, mustNot_pos hc.2⟩))
  case setSpiceOrigin n s =>
    split
    · exact hs
    · next hc =>
      simp at hc
      exact spiceUp_set h hs n _ rfl (Or.inr (Or.inl ⟨rfl, canBe_pos hc.2⟩))
  case setPositionCallback n =>
    split
    · exact hs
    · next hn =>
      simp [nodeOk] at hn
      refine spiceUp_set h hs n _ rfl (Or.inr (Or.inr ⟨by simp, fun c hc => ?_⟩))
      obtain ⟨h1, h2⟩ := h.down c n hn hc
      exact hg c h1 h2
  case setStateCallback n =>
    split
    · exact hs
    · next hn =>
      simp [nodeOk] at hn
      refine spiceUp_set h hs n _ rfl (Or.inr (Or.inr ⟨by simp, fun c hc => ?_⟩))
      obtain ⟨h1, h2⟩ := h.down c n hn hc
      exact (hg c h1 h2).1
  all_goals
    split
    · exact hs
    · exact spiceUp_set h hs _ _ rfl (Or.inl rfl)

theorem spiceUp_step_rot (d : Local V) {g : Graph V S} (h : WF g) (hs : SpiceUp Node.rotMode g) (op : Op V S)
    (hg : CallbackGuard g op) : SpiceUp Node.rotMode (step d g op).1 := by
  have hset : ∀ (g : Graph V S) n o f, WF g → SpiceUp Node.rotMode g → SpiceUp Node.rotMode (setSpice g n o f).1 := by
    intro g n o f h hs
    unfold setSpice
    split
    · exact hs
    · split
      · exact hs
      · next hc =>
        simp at hc
        exact spiceUp_set h hs n _ rfl (Or.inr (Or.inl ⟨rfl, canBe_rot hc⟩))
  cases op <;> simp only [step]
  case newSubframe p =>
    split
    · next hf =>
      simp [frameOk] at hf
      exact spiceUp_addChild h hs d p _ _ hf.1 (by simp [freshNode]) (fun _ _ => rfl)
    · exact hs
  case newSpiceSubframe p o f =>
    split
    · next hf =>
      simp [frameOk] at hf
      have hw := hset _ g.count o f (wf_addChild h d p true none hf.1)
        (spiceUp_addChild h hs d p true none hf.1 (by simp [freshNode]) (fun _ _ => rfl))
      split <;> next e => rw [e] at hw; exact hw
    · exact hs
  case newInstance p a =>
    split
    · next hf =>
      simp [frameOk] at hf
      exact spiceUp_addChild h hs d p _ _ hf.1 (by simp [freshNode]) (fun _ _ => rfl)
    · exact hs
  case deleteChild p c =>
    split
    · next hf => simp [nodeOk] at hf; rw [deleteChild_throws h p c hf.2]; exact hs
    · exact hs
  case setSpice n o f =>
    split
    · exact hset g n o f h hs
    · exact hs
  case setRotation n v =>
    split
    · exact hs
    · next hc =>
      simp at hc
      exact spiceUp_set h hs n _ rfl (Or.inr (Or.inr ⟨by simp, mustNot_rot hc.2⟩))
  case setSpiceFrame n s =>
    split
    · exact hs
    · next hc =>
      simp at hc
      exact spiceUp_set h hs n _ rfl (Or.inr (Or.inl ⟨rfl, canBe_rot hc.2⟩))
  case setRotationCallback n =>
    split
    · exact hs
    · next hn =>
      simp [nodeOk] at hn
      refine spiceUp_set h hs n _ rfl (Or.inr (Or.inr ⟨by simp, fun c hc => ?_⟩))
      obtain ⟨h1, h2⟩ := h.down c n hn hc
      exact hg c h1 h2
  case setStateCallback n =>
    split
    · exact hs
    · next hn =>
      simp [nodeOk] at hn
      refine spiceUp_set h hs n _ rfl (Or.inr (Or.inr ⟨by simp, fun c hc => ?_⟩))
      obtain ⟨h1, h2⟩ := h.down c n hn hc
      exact (hg c h1 h2).2
  all_goals
    split
    · exact hs
    · exact spiceUp_set h hs _ _ rfl (Or.inl rfl)

/-- C05, every history in which callbacks are not installed above SPICE children. Missing w.r.t. `C05_full`:
exactly the histories excluded by `CallbackGuard`, where the property is false. -/
theorem C05_partial (d : Local V) (a b : S) (g : Graph V S) (hr : Reach d a b CallbackGuard g) :
    SpiceConsistent g := by
  have : SpiceUp Node.posMode g ∧ SpiceUp Node.rotMode g := by
    induction hr with
    | init => constructor <;> intro c p _ hp <;> simp [initGraph, freshNode] at hp
    | step hr hg ih => exact ⟨spiceUp_step_pos d hr.wf ih.1 _ hg, spiceUp_step_rot d hr.wf ih.2 _ hg⟩
  intro c p hc hp
  exact ⟨this.1 c p hc hp, this.2 c p hc hp⟩

/-- A non-trivial reachable graph (SPICE grandchild, a callback on a sibling). -/
example : ∃ g : Graph Int Int, Reach ⟨0, 0, 0, 0, 1⟩ 0 0 CallbackGuard g ∧ g.count = 4 ∧
    (g.node 3).posMode = .spice ∧ (g.node 3).parent = some 1 := by
  let d : Local Int := ⟨0, 0, 0, 0, 1⟩
  let g1 := (step d (initGraph d (0:Int) 0) (.newSubframe 0)).1
  let g2 := (step d g1 (.setSpice 1 5 6)).1
  let g3 := (step d g2 (.newSubframe 0)).1
  let g4 := (step d g3 (.newSubframe 1)).1
  let g5 := (step d g4 (.setSpice 3 7 8)).1
  refine ⟨(step d g5 (.setPositionCallback 2)).1, ?_, rfl, rfl, rfl⟩
  refine .step (.step (.step (.step (.step (.step .init trivial) trivial) trivial) trivial) trivial) ?_
  intro c hc hp
  have : c < 4 := hc
  have : c = 0 ∨ c = 1 ∨ c = 2 ∨ c = 3 := by omega
  rcases this with rfl | rfl | rfl | rfl <;> first | (simp [d, g1, g2, g3, g4, g5, step] at hp; done) | skip
  all_goals revert hp; decide

/-! ### C06 -/

/-- C06 in full: a throwing call changes nothing. -/
def C06_full (d : Local V) (a b : S) : Prop :=
  ∀ g, Reach d a b Any g → ∀ op, (step d g op).2 = .throw → (step d g op).1 = g

/-- The code violates C06: `new_spice_subframe` under a manual frame throws but leaves a new child behind. -/
theorem C06_violated (d : Local V) (a b : S) : ¬ C06_full d a b := by
  intro h
  let g1 := (step d (initGraph d a b) (.newSubframe 0)).1
  have hr : Reach d a b Any g1 := .step .init trivial
  have := h g1 hr (.newSpiceSubframe 1 a b) rfl
  have h2 := congrArg Graph.count this
  exact absurd (show 3 = 2 from h2) (by decide)

/-- C06 for every other call, in every state. -/
theorem C06_partial (d : Local V) (g : Graph V S) (op : Op V S)
    (hop : ∀ p o f, op ≠ .newSpiceSubframe p o f) (ht : (step d g op).2 = .throw) : (step d g op).1 = g := by
  cases op
  case newSpiceSubframe p o f => exact absurd rfl (hop p o f)
  case deleteChild p c =>
    simp only [step] at ht ⊢
    split
    · next hc =>
      simp only [hc, if_true] at ht
      unfold deleteChild at ht ⊢
      repeat' split
      all_goals first | rfl | (simp_all; done)
    · rfl
  case setSpice n o f =>
    simp only [step] at ht ⊢
    split
    · next hc =>
      simp only [hc, if_true] at ht
      unfold setSpice at ht ⊢
      repeat' split
      all_goals first | rfl | (simp_all; done)
    · rfl
  all_goals
    simp only [step] at ht ⊢
    split
    · first | rfl | (simp_all; done)
    · first | rfl | (simp_all; done)

/-- What the failing call leaves behind: one more node, a manual child of the frame, everything else as before
(apart from that frame's child list). -/
theorem C06_orphan (d : Local V) (g : Graph V S) (p : Nat) (o f : S) (hf : frameOk g p = true)
    (ht : (step d g (.newSpiceSubframe p o f)).2 = .throw) :
    let g' := (step d g (.newSpiceSubframe p o f)).1
    g'.count = g.count + 1 ∧ (g'.node g.count).parent = some p ∧ (g'.node g.count).posMode = .manual ∧
      (g'.node p).children = (g.node p).children ++ [g.count] ∧
      ∀ i, i ≠ p → i ≠ g.count → g'.node i = g.node i := by
  have hp : p ≠ g.count := by simp [frameOk] at hf; omega
  have key : (step d g (.newSpiceSubframe p o f)).1 = addChild d g p true none := by
    simp only [step, hf, if_true] at ht ⊢
    unfold setSpice at ht ⊢
    by_cases h1 : posCanBeSpice (addChild d g p true none) g.count = true <;>
      by_cases h2 : rotCanBeSpice (addChild d g p true none) g.count = true <;> simp_all
  simp only [key]
  refine ⟨rfl, by simp [addChild_node, freshNode], by simp [addChild_node, freshNode], ?_, ?_⟩
  · simp [addChild_node, hp]
  · intro i h1 h2; simp [addChild_node, h1, h2]

example (d : Local V) (a b : S) : (step d (step d (initGraph d a b) (.newSubframe 0)).1
    (.newSpiceSubframe 1 a b)).2 = .throw := rfl

/-! ### C07 -/

/-- C07 in full: deleting an existing child of a frame succeeds and the child is gone. -/
def C07_full (d : Local V) (a b : S) : Prop :=
  ∀ g, Reach d a b Any g → ∀ p c, c < g.count → (g.node p).isFrame = true → (g.node c).parent = some p →
    (step d g (.deleteChild p c)).2 = .done ∧ c ∉ ((step d g (.deleteChild p c)).1.node p).children

/-- The truth, for every reachable scene: `delete_subframe` / `delete_instance` of an existing node *always*
throws and changes nothing, because nodes made by `new_subframe` / `new_instance` are never entered in the
registry that `delete_child` removes them from. -/
theorem C07_delete_always_throws (d : Local V) (a b : S) (g : Graph V S) (hr : Reach d a b Any g) (p c : Nat)
    (hc : c < g.count) : step d g (.deleteChild p c) = (g, .throw) := by
  simp only [step]
  split
  · exact deleteChild_throws hr.wf p c hc
  · rfl

/-- Hence C07 is violated. -/
theorem C07_violated (d : Local V) (a b : S) : ¬ C07_full d a b := by
  intro h
  let g1 := (step d (initGraph d a b) (.newSubframe 0)).1
  have hr : Reach d a b Any g1 := .step .init trivial
  have h1 := (h g1 hr 0 1 (show 1 < 2 by decide) rfl rfl).1
  rw [C07_delete_always_throws d a b g1 hr 0 1 (show 1 < 2 by decide)] at h1
  exact absurd (show Out.throw = Out.done from h1) (by decide)

/-- Consequently no node ever disappears: once created, a node is in the graph after every further history. -/
theorem C07_nodes_are_permanent (d : Local V) (g : Graph V S) (hw : WF g) (op : Op V S) :
    g.count ≤ (step d g op).1.count ∧ ∀ c p, c < g.count → (g.node c).parent = some p →
      c ∈ ((step d g op).1.node p).children := by
  have keep : ∀ (g : Graph V S) (n : Nat) (x : Node V S), WF g → x.children = (g.node n).children →
      g.count ≤ (g.set n x).count ∧ ∀ c p, c < g.count → (g.node c).parent = some p →
      c ∈ ((g.set n x).node p).children := by
    intro g n x hw hx
    refine ⟨Nat.le_refl _, fun c p hc hp => ?_⟩
    have := (hw.up c p hc hp).2
    simp only [Graph.set]
    split
    · next e => subst e; rw [hx]; exact this
    · exact this
  have same : g.count ≤ g.count ∧ ∀ c p, c < g.count → (g.node c).parent = some p →
      c ∈ (g.node p).children := ⟨Nat.le_refl _, fun c p hc hp => (hw.up c p hc hp).2⟩
  have hadd : ∀ p f a, p < g.count → g.count ≤ (addChild d g p f a).count ∧
      ∀ c q, c < g.count → (g.node c).parent = some q → c ∈ ((addChild d g p f a).node q).children := by
    intro p f a hp
    refine ⟨Nat.le_succ _, fun c q hc hq => ?_⟩
    obtain ⟨h1, h2⟩ := hw.up c q hc hq
    rw [addChild_node]
    have : q ≠ g.count := by omega
    simp only [this, if_false]
    split
    · next e => subst e; simp [h2]
    · exact h2
  have hss : ∀ (g : Graph V S) n o f, WF g → g.count ≤ (setSpice g n o f).1.count ∧ ∀ c p, c < g.count →
      (g.node c).parent = some p → c ∈ ((setSpice g n o f).1.node p).children := by
    intro g n o f hw
    have same : g.count ≤ g.count ∧ ∀ c p, c < g.count → (g.node c).parent = some p →
      c ∈ (g.node p).children := ⟨Nat.le_refl _, fun c p hc hp => (hw.up c p hc hp).2⟩
    unfold setSpice
    split
    · exact same
    · split
      · exact same
      · exact keep g n _ hw rfl
  cases op <;> simp only [step]
  case newSubframe p =>
    split
    · next hf => simp [frameOk] at hf; exact hadd p _ _ hf.1
    · exact same
  case newInstance p a =>
    split
    · next hf => simp [frameOk] at hf; exact hadd p _ _ hf.1
    · exact same
  case newSpiceSubframe p o f =>
    split
    · next hf =>
      simp [frameOk] at hf
      have h1 := hadd p true none hf.1
      have h2 := hss (addChild d g p true none) g.count o f (wf_addChild hw d p true none hf.1)
      have h3 : g.count ≤ (setSpice (addChild d g p true none) g.count o f).1.count ∧ ∀ c q, c < g.count →
          (g.node c).parent = some q → c ∈ ((setSpice (addChild d g p true none) g.count o f).1.node q).children := by
        refine ⟨Nat.le_trans h1.1 h2.1, fun c q hc hq => ?_⟩
        refine h2.2 c q (Nat.lt_succ_of_lt hc) ?_
        rw [addChild_node]
        simp only [Nat.ne_of_lt hc, if_false]
        split
        · next e => subst e; exact hq
        · exact hq
      split <;> next e => rw [e] at h3; exact h3
    · exact same
  case deleteChild p c =>
    split
    · next hf => simp [nodeOk] at hf; rw [deleteChild_throws hw p c hf.2]; exact same
    · exact same
  case setSpice n o f =>
    split
    · exact hss g n o f hw
    · exact same
  all_goals
    split
    · exact same
    · exact keep g _ _ hw rfl

/-! Deleting assets that are instantiated somewhere. -/

theorem prune_cases {g : Graph V S} (hw : WF g) (a : Nat) : ∀ fuel n, n < g.count →
    prune g a fuel n = (g, .done) ∨ prune g a fuel n = (g, .throw) := by
  intro fuel
  induction fuel with
  | zero => intro n _; exact Or.inl rfl
  | succ fuel ih =>
    intro n hn
    simp only [prune]
    have hl : ∀ c ∈ (g.node n).children, c < g.count := fun c hc => (hw.down c n hn hc).1
    generalize (g.node n).children = l at hl
    have : ∀ (l : List Nat) (acc : Graph V S × Out), (∀ c ∈ l, c < g.count) → (acc = (g, .done) ∨ acc = (g, .throw)) →
        (l.foldl (fun (acc : Graph V S × Out) c =>
          match acc with
          | (g', .throw) => (g', .throw)
          | (g', _) => if (g'.node c).asset = some a then deleteChild g' n c else prune g' a fuel c) acc = (g, .done) ∨
         l.foldl (fun (acc : Graph V S × Out) c =>
          match acc with
          | (g', .throw) => (g', .throw)
          | (g', _) => if (g'.node c).asset = some a then deleteChild g' n c else prune g' a fuel c) acc = (g, .throw)) := by
      intro l
      induction l with
      | nil => intro acc _ h; exact h
      | cons c l ihl =>
        intro acc hl h
        rw [List.foldl_cons]
        apply ihl _ (fun x hx => hl x (List.mem_cons_of_mem _ hx))
        have hc := hl c (by simp)
        rcases h with rfl | rfl
        · simp only
          split
          · right; exact deleteChild_throws hw n c hc
          · exact ih c hc
        · right; rfl
    exact this l _ hl (Or.inl rfl)

/-- Ancestor relation through `parent`. -/
inductive Below (g : Graph V S) (n : Nat) : Nat → Prop
  | child {c} : c < g.count → (g.node c).parent = some n → Below g n c
  | deeper {c p} : Below g n p → c < g.count → (g.node c).parent = some p → Below g n c

theorem Below.split {g : Graph V S} {n i : Nat} (h : Below g n i) :
    ∃ c, c < g.count ∧ (g.node c).parent = some n ∧ (i = c ∨ Below g c i) := by
  induction h with
  | child h1 h2 => exact ⟨_, h1, h2, Or.inl rfl⟩
  | deeper _ h2 h3 ih =>
    obtain ⟨c, hc1, hc2, hc3⟩ := ih
    refine ⟨c, hc1, hc2, Or.inr ?_⟩
    rcases hc3 with rfl | hc3
    · exact .child h2 h3
    · exact .deeper hc3 h2 h3

theorem below_root {g : Graph V S} (hw : WF g) : ∀ i, i < g.count → i ≠ 0 → Below g 0 i := by
  intro i
  induction i using Nat.strongRecOn with
  | ind i ih =>
    intro hi h0
    obtain ⟨p, hp⟩ := hw.nonroot i hi h0
    have hlt := (hw.up i p hi hp).1
    by_cases e : p = 0
    · subst e; exact .child hi hp
    · exact .deeper (ih p hlt (by omega) e) hi hp

theorem prune_throws {g : Graph V S} (hw : WF g) (a : Nat) : ∀ fuel n i, n < g.count → g.count < fuel + n + 1 →
    Below g n i → (g.node i).asset = some a → prune g a fuel n = (g, .throw) := by
  intro fuel
  induction fuel with
  | zero => intro n i hn hf; omega
  | succ fuel ih =>
    intro n i hn hf hb ha
    obtain ⟨c, hc1, hc2, hc3⟩ := hb.split
    have hup := hw.up c n hc1 hc2
    simp only [prune]
    have hl : ∀ c ∈ (g.node n).children, c < g.count := fun c hc => (hw.down c n hn hc).1
    have hcmem := hup.2
    generalize (g.node n).children = l at hl hcmem
    have thr : ∀ l : List Nat, l.foldl (fun (acc : Graph V S × Out) c =>
          match acc with
          | (g', .throw) => (g', .throw)
          | (g', _) => if (g'.node c).asset = some a then deleteChild g' n c else prune g' a fuel c) (g, .throw)
          = (g, .throw) := by
      intro l
      induction l with
      | nil => rfl
      | cons x l ihl => rw [List.foldl_cons]; exact ihl
    have : ∀ (l : List Nat), (∀ c ∈ l, c < g.count) → c ∈ l →
         l.foldl (fun (acc : Graph V S × Out) c =>
          match acc with
          | (g', .throw) => (g', .throw)
          | (g', _) => if (g'.node c).asset = some a then deleteChild g' n c else prune g' a fuel c) (g, .done)
          = (g, .throw) := by
      intro l
      induction l with
      | nil => intro _ h; simp at h
      | cons x l ihl =>
        intro hl hm
        rw [List.foldl_cons]
        have hx := hl x (by simp)
        have hcase : (if (g.node x).asset = some a then deleteChild g n x else prune g a fuel x) = (g, .throw) ∨
            (if (g.node x).asset = some a then deleteChild g n x else prune g a fuel x) = (g, .done) := by
          split
          · left; exact deleteChild_throws hw n x hx
          · exact (prune_cases hw a fuel x hx).symm
        rcases hcase with hcase | hcase
        · simp only [hcase]; exact thr l
        · simp only [hcase]
          apply ihl (fun y hy => hl y (List.mem_cons_of_mem _ hy))
          rcases List.mem_cons.1 hm with e | hm
          · exfalso
            subst e
            split at hcase
            · rw [deleteChild_throws hw n c hx] at hcase; simp at hcase
            · next hna =>
              rcases hc3 with rfl | hc3
              · exact hna ha
              · rw [ih c i hx (by omega) hc3 ha] at hcase; simp at hcase
          · exact hm
    exact this l hl hcmem

/-- Deleting an asset (light, primitive, model, camera, unresolved object) that has an instance anywhere in
the scene always throws while pruning the graph; the graph is unchanged and the asset stays registered
(`primitives_.remove` etc. is never reached). -/
theorem C07_instanced_asset_cannot_be_deleted (d : Local V) (s0 f0 : S) (g : Graph V S)
    (hr : Reach d s0 f0 Any g) (i a : Nat) (hi : i < g.count) (ha : (g.node i).asset = some a) :
    prune g a g.count 0 = (g, .throw) := by
  have hw := hr.wf
  have h0 : i ≠ 0 := by intro e; subst e; rw [hw.rootFrame] at ha; simp at ha
  exact prune_throws hw a g.count 0 i hw.pos (by omega) (below_root hw i hi h0) ha

example : ∃ g : Graph Int Int, Reach ⟨0, 0, 0, 0, 1⟩ 0 0 Any g ∧ (g.node 2).asset = some 7 ∧ 2 < g.count :=
  ⟨_, .step (op := .newInstance 1 7) (.step (op := .newSubframe 0) .init trivial) trivial, rfl, by decide⟩

/-! ### C09 -/

/-- C09 for rotations in full: the rotation getter answers exactly when the rotation is manual. -/
def C09_rotation_full (d : Local V) (a b : S) : Prop :=
  ∀ g, Reach d a b Any g → ∀ n, n < g.count →
    ((g.node n).rotMode = .manual ↔ getRotation g n = .val (g.node n).loc.rotation)

/-- Violated both ways: a SPICE-rotated, manually positioned node answers with a stale rotation... -/
theorem C09_rotation_violated (d : Local V) (a b : S) : ¬ C09_rotation_full d a b := by
  intro h
  let g1 := (step d (initGraph d a b) (.newSubframe 0)).1
  let g2 := (step d g1 (.setSpiceFrame 1 b)).1
  have hr : Reach d a b Any g2 := .step (.step .init trivial) trivial
  have := (h g2 hr 1 (show 1 < 2 by decide)).2 rfl
  exact absurd (show Mode.spice = Mode.manual from this) (by decide)

/-- ... and a manually rotated, SPICE-positioned node refuses to answer. -/
theorem C09_rotation_refused (d : Local V) (a b : S) : ∃ g, Reach d a b Any g ∧ (g.node 1).rotMode = .manual ∧
    getRotation g 1 = .throw ∧ getAngularVelocity g 1 = .throw :=
  ⟨(step d (step d (initGraph d a b) (.newSubframe 0)).1 (.setSpiceOrigin 1 a)).1,
    .step (.step .init trivial) trivial, rfl, rfl, rfl⟩

/-- Likewise the SPICE frame getter: it throws on a node whose rotation *is* SPICE-driven. -/
theorem C09_frame_refused (d : Local V) (a b : S) : ∃ g, Reach d a b Any g ∧ (g.node 1).rotMode = .spice ∧
    getFrame g 1 = .throw :=
  ⟨(step d (step d (initGraph d a b) (.newSubframe 0)).1 (.setSpiceFrame 1 b)).1,
    .step (.step .init trivial) trivial, rfl, rfl⟩

/-- `set_manual_transform` succeeds on a SPICE node without making it manual: the transform just set cannot be
read back (and is not used). -/
theorem C09_manual_transform_ignored (d : Local V) (a b : S) (t : Local V) : ∃ g g', Reach d a b Any g ∧
    step d g (.setManualTransform 1 t) = (g', .done) ∧ getPosition g' 1 = .throw ∧
    (g'.node 1).posMode = .spice :=
  ⟨(step d (step d (initGraph d a b) (.newSubframe 0)).1 (.setSpice 1 a b)).1, _,
    .step (.step .init trivial) trivial, rfl, rfl, rfl⟩

/-- C09, position components: in every state the position/velocity/origin getters answer exactly when the
component is in the required mode, with the stored value. -/
theorem C09_position_getters (g : Graph V S) (n : Nat) :
    ((g.node n).posMode = .manual → getPosition g n = .val (g.node n).loc.position ∧
        getVelocity g n = .val (g.node n).loc.velocity) ∧
    ((g.node n).posMode ≠ .manual → getPosition g n = .throw ∧ getVelocity g n = .throw) ∧
    ((g.node n).posMode = .spice → getOrigin g n = .val (g.node n).origin) ∧
    ((g.node n).posMode ≠ .spice → getOrigin g n = .throw) := by
  refine ⟨?_, ?_, ?_, ?_⟩ <;> intro h <;> simp [getPosition, getVelocity, getOrigin, h]

/-- C09, rotation components, for nodes whose two modes agree (missing: nodes mixing modes, where it fails). -/
theorem C09_rotation_getters_partial (g : Graph V S) (n : Nat) (hm : (g.node n).posMode = (g.node n).rotMode) :
    ((g.node n).rotMode = .manual → getRotation g n = .val (g.node n).loc.rotation ∧
        getAngularVelocity g n = .val (g.node n).loc.angularVelocity) ∧
    ((g.node n).rotMode ≠ .manual → getRotation g n = .throw ∧ getAngularVelocity g n = .throw) ∧
    ((g.node n).rotMode = .spice → getFrame g n = .val (g.node n).frame) ∧
    ((g.node n).rotMode ≠ .spice → getFrame g n = .throw) := by
  refine ⟨?_, ?_, ?_, ?_⟩ <;> intro h <;> simp [getRotation, getAngularVelocity, getFrame, hm, h]

/-- Calls that may change what `get_static_position` of node `n` answers. -/
def TouchesPosition (n : Nat) : Op V S → Prop
  | .setPosition m _ | .setManualTransform m _ | .setSpiceOrigin m _ | .setSpice m _ _
  | .setPositionCallback m | .setStateCallback m => m = n
  | _ => False

/-- C09: after a successful `set_position` the getter returns the value set ... -/
theorem C09_set_get_position (d : Local V) (g : Graph V S) (n : Nat) (v : V)
    (h : (step d g (.setPosition n v)).2 = .done) : getPosition (step d g (.setPosition n v)).1 n = .val v := by
  simp only [step] at h ⊢
  split at h
  · simp at h
  · next hc => simp [hc, getPosition, Graph.set]

/-- ... and keeps returning it until a call that sets this node's position source: calls on other nodes, child
creation, failed deletions and setters of other components do not change it. -/
theorem C09_position_stable (d : Local V) (g : Graph V S) (hw : WF g) (n : Nat) (hn : n < g.count) (op : Op V S)
    (h : ¬ TouchesPosition n op) : getPosition (step d g op).1 n = getPosition g n := by
  have keep : ∀ (m : Nat) (x : Node V S), (m = n → x.posMode = (g.node n).posMode ∧
      x.loc.position = (g.node n).loc.position) → getPosition (g.set m x) n = getPosition g n := by
    intro m x hx
    simp only [getPosition, Graph.set]
    by_cases e : n = m
    · subst e; simp [hx rfl]
    · simp [e]
  have hadd : ∀ p f a, getPosition (addChild d g p f a) n = getPosition g n := by
    intro p f a
    simp only [getPosition, addChild_node, Nat.ne_of_lt hn, if_false]
    by_cases e : n = p
    · subst e; simp
    · simp [e]
  cases op <;> simp only [step, TouchesPosition, not_false_eq_true] at h ⊢
  case deleteChild p c =>
    split
    · next hf => simp [nodeOk] at hf; rw [deleteChild_throws hw p c hf.2]
    · rfl
  case newSpiceSubframe p o f =>
    split
    · have hset : getPosition (setSpice (addChild d g p true none) g.count o f).1 n = getPosition g n := by
        unfold setSpice
        split
        · exact hadd p true none
        · split
          · exact hadd p true none
          · rw [← hadd p true none]
            simp [getPosition, Graph.set, Nat.ne_of_lt hn]
      split <;> next e => rw [e] at hset; exact hset
    · rfl
  case setSpice m o f =>
    split
    · unfold setSpice
      split
      · rfl
      · split
        · rfl
        · exact keep m _ (fun e => absurd e h)
    · rfl
  all_goals
    split
    · first | rfl | exact hadd _ _ _
    · first
      | rfl
      | exact hadd _ _ _
      | exact keep _ _ (fun e => absurd e h)
      | exact keep _ _ (fun e => by subst e; exact ⟨rfl, rfl⟩)

example (d : Local Int) : (step d (step d (initGraph d (0:Int) 0) (.newSubframe 0)).1 (.setPosition 1 42)).2 = .done := rfl

/-- C09, new nodes: a new child frame starts in manual mode at the default local transform, with inertial rates, without
SPICE names, children or asset. -/
theorem C09_new_frame (d : Local V) (g : Graph V S) (p : Nat) (hp : p < g.count) (hf : (g.node p).isFrame = true) :
    let r := step d g (.newSubframe p)
    r.1.count = g.count + 1 ∧ (r.1.node g.count).posMode = .manual ∧ (r.1.node g.count).rotMode = .manual ∧
    (r.1.node g.count).loc = d ∧ (r.1.node g.count).bodyRates = false ∧ (r.1.node g.count).origin = none ∧
    (r.1.node g.count).frame = none ∧ (r.1.node g.count).children = [] ∧ (r.1.node g.count).asset = none ∧
    (r.1.node g.count).parent = some p := by
  simp [step, nodeOk, frameOk, hp, hf, addChild, freshNode]

/-- A successful call on node `n` that ends with node `n` equal to `x` and every other node, the number of nodes and the
registry unchanged. -/
def Updates (g : Graph V S) (r : Graph V S × Out) (n : Nat) (x : Node V S) : Prop :=
  r.2 = .done ∧ r.1.node n = x ∧ (∀ m, m ≠ n → r.1.node m = g.node m) ∧ r.1.count = g.count ∧ r.1.registered = g.registered

theorem updates_set (g : Graph V S) (n : Nat) (x : Node V S) : Updates g (g.set n x, .done) n x := by
  refine ⟨rfl, by simp [Graph.set], ?_, rfl, rfl⟩
  intro m hm; simp [Graph.set, hm]

/-- C09, rate setters: accepted exactly in manual mode of the corresponding component; they then change that rate (and the
frame it is expressed in) and nothing else, otherwise nothing at all. -/
theorem C09_rate_setters (d : Local V) (g : Graph V S) (n : Nat) (hn : n < g.count) (v : V) :
    ((g.node n).posMode = .manual → Updates g (step d g (.setVelocity n v)) n
      { g.node n with loc := { (g.node n).loc with velocity := v } }) ∧
    ((g.node n).posMode ≠ .manual → step d g (.setVelocity n v) = (g, .throw)) ∧
    ((g.node n).rotMode = .manual →
      Updates g (step d g (.setAngularVelocity n v)) n
        { g.node n with loc := { (g.node n).loc with angularVelocity := v }, bodyRates := false } ∧
      Updates g (step d g (.setBodyAngularVelocity n v)) n
        { g.node n with loc := { (g.node n).loc with angularVelocity := v }, bodyRates := true }) ∧
    ((g.node n).rotMode ≠ .manual → step d g (.setAngularVelocity n v) = (g, .throw) ∧
      step d g (.setBodyAngularVelocity n v) = (g, .throw)) := by
  refine ⟨fun h => ?_, fun h => ?_, fun h => ⟨?_, ?_⟩, fun h => ⟨?_, ?_⟩⟩ <;>
    simp only [step, nodeOk, hn, h, decide_true, Bool.not_true, Bool.false_or, ne_eq, not_true_eq_false,
      not_false_eq_true, decide_false, if_true, Bool.false_eq_true, if_false] <;>
    exact updates_set _ _ _

/-- C09, source setters: a component can be set manually exactly when no child takes it from SPICE, and can be put
under SPICE exactly when the parent (if any) is; callbacks and the scale can always be set. Refused calls change
nothing, accepted ones only this node. -/
theorem C09_source_setters (d : Local V) (g : Graph V S) (n : Nat) (hn : n < g.count) (v : V) (s s' : S) :
    ((∃ c ∈ (g.node n).children, (g.node c).posMode = .spice) → step d g (.setPosition n v) = (g, .throw)) ∧
    ((∀ c ∈ (g.node n).children, (g.node c).posMode ≠ .spice) → Updates g (step d g (.setPosition n v)) n
      { g.node n with loc := { (g.node n).loc with position := v }, posMode := .manual, origin := none }) ∧
    ((∃ c ∈ (g.node n).children, (g.node c).rotMode = .spice) → step d g (.setRotation n v) = (g, .throw)) ∧
    ((∀ c ∈ (g.node n).children, (g.node c).rotMode ≠ .spice) → Updates g (step d g (.setRotation n v)) n
      { g.node n with loc := { (g.node n).loc with rotation := v }, rotMode := .manual, frame := none }) ∧
    ((∃ p, (g.node n).parent = some p ∧ (g.node p).posMode ≠ .spice) →
      step d g (.setSpiceOrigin n s) = (g, .throw) ∧ step d g (.setSpice n s s') = (g, .throw)) ∧
    ((∀ p, (g.node n).parent = some p → (g.node p).posMode = .spice) → Updates g (step d g (.setSpiceOrigin n s)) n
      { g.node n with origin := some s, posMode := .spice }) ∧
    ((∃ p, (g.node n).parent = some p ∧ (g.node p).rotMode ≠ .spice) →
      step d g (.setSpiceFrame n s) = (g, .throw) ∧ step d g (.setSpice n s s') = (g, .throw)) ∧
    ((∀ p, (g.node n).parent = some p → (g.node p).rotMode = .spice) → Updates g (step d g (.setSpiceFrame n s)) n
      { g.node n with frame := some s, rotMode := .spice }) ∧
    ((∀ p, (g.node n).parent = some p → (g.node p).posMode = .spice ∧ (g.node p).rotMode = .spice) →
      Updates g (step d g (.setSpice n s s')) n
        { g.node n with origin := some s, frame := some s', posMode := .spice, rotMode := .spice }) ∧
    Updates g (step d g (.setScale n v)) n { g.node n with loc := { (g.node n).loc with scale := v } } ∧
    Updates g (step d g (.setPositionCallback n)) n { g.node n with posMode := .positionCallback, origin := none } ∧
    Updates g (step d g (.setRotationCallback n)) n { g.node n with rotMode := .rotationCallback, frame := none } ∧
    Updates g (step d g (.setStateCallback n)) n
      { g.node n with posMode := .transformCallback, rotMode := .transformCallback, origin := none, frame := none } := by
  have pm : posMustBeSpice g n = true ↔ ∃ c ∈ (g.node n).children, (g.node c).posMode = .spice := by
    simp [posMustBeSpice]
  have rm : rotMustBeSpice g n = true ↔ ∃ c ∈ (g.node n).children, (g.node c).rotMode = .spice := by
    simp [rotMustBeSpice]
  have pc : posCanBeSpice g n = true ↔ ∀ p, (g.node n).parent = some p → (g.node p).posMode = .spice := by
    unfold posCanBeSpice; cases (g.node n).parent <;> simp
  have rc : rotCanBeSpice g n = true ↔ ∀ p, (g.node n).parent = some p → (g.node p).rotMode = .spice := by
    unfold rotCanBeSpice; cases (g.node n).parent <;> simp
  have ok : nodeOk g n = true := by simp [nodeOk, hn]
  refine ⟨fun h => ?_, fun h => ?_, fun h => ?_, fun h => ?_, fun h => ?_, fun h => ?_, fun h => ?_, fun h => ?_,
    fun h => ?_, ?_, ?_, ?_, ?_⟩
  · simp [step, ok, pm.2 h]
  · have : posMustBeSpice g n = false := by
      rw [← Bool.not_eq_true, pm]; exact fun ⟨c, hc, e⟩ => h c hc e
    simp only [step, ok, this, Bool.not_true, Bool.or_self, Bool.false_eq_true, if_false]
    exact updates_set _ _ _
  · simp [step, ok, rm.2 h]
  · have : rotMustBeSpice g n = false := by
      rw [← Bool.not_eq_true, rm]; exact fun ⟨c, hc, e⟩ => h c hc e
    simp only [step, ok, this, Bool.not_true, Bool.or_self, Bool.false_eq_true, if_false]
    exact updates_set _ _ _
  · have : posCanBeSpice g n = false := by
      rw [← Bool.not_eq_true, pc]; exact fun hh => by obtain ⟨p, hp, e⟩ := h; exact e (hh p hp)
    constructor <;> simp [step, ok, setSpice, this]
  · simp only [step, ok, pc.2 h, Bool.not_true, Bool.or_self, Bool.false_eq_true, if_false]
    exact updates_set _ _ _
  · have : rotCanBeSpice g n = false := by
      rw [← Bool.not_eq_true, rc]; exact fun hh => by obtain ⟨p, hp, e⟩ := h; exact e (hh p hp)
    constructor <;> simp [step, ok, setSpice, this]
  · simp only [step, ok, rc.2 h, Bool.not_true, Bool.or_self, Bool.false_eq_true, if_false]
    exact updates_set _ _ _
  · simp only [step, ok, setSpice, pc.2 fun p hp => (h p hp).1, rc.2 fun p hp => (h p hp).2, Bool.not_true,
      Bool.false_eq_true, if_false, if_true]
    exact updates_set _ _ _
  all_goals
    simp only [step, ok, Bool.not_true, Bool.false_eq_true, if_false]
    exact updates_set _ _ _

/-- Both directions of every clause occur: the root's child, before and after it gets a SPICE child. -/
example (d : Local Int) :
    (step d (step d (initGraph d (0:Int) 0) (.newSubframe 0)).1 (.setVelocity 1 5)).2 = .done ∧
    (step d (step d (step d (initGraph d (0:Int) 0) (.newSubframe 0)).1 (.setSpice 1 0 0)).1 (.setVelocity 1 5)).2 = .throw ∧
    (step d (step d (initGraph d (0:Int) 0) (.newSpiceSubframe 0 0 0)).1 (.setPosition 0 5)).2 = .throw := ⟨rfl, rfl, rfl⟩

end Huira.SceneGraph
