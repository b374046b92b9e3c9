import Verif.SceneGraph.Model
/-! Helper lemmas for the scene graph. -/
set_option linter.unusedSimpArgs false
namespace Huira.SceneGraph
variable {V S : Type}

/-- Structural well-formedness. -/
structure WF (g : Graph V S) : Prop where
  noReg : g.registered = []
  pos : 0 < g.count
  root : (g.node 0).parent = none
  rootFrame : (g.node 0).asset = none
  nonroot : ∀ c, c < g.count → c ≠ 0 → ∃ p, (g.node c).parent = some p
  up : ∀ c p, c < g.count → (g.node c).parent = some p → p < c ∧ c ∈ (g.node p).children
  down : ∀ c p, p < g.count → c ∈ (g.node p).children → c < g.count ∧ (g.node c).parent = some p

theorem wf_init (d : Local V) (a b : S) : WF (initGraph d a b) := by
  constructor <;> simp [initGraph, freshNode]

/-- Updating a node without touching parent, children and asset keeps `WF`. -/
theorem wf_set {g : Graph V S} (h : WF g) (n : Nat) (x : Node V S) (hp : x.parent = (g.node n).parent)
    (hc : x.children = (g.node n).children) (ha : x.asset = (g.node n).asset) : WF (g.set n x) := by
  have e1 : ∀ i, ((g.set n x).node i).parent = (g.node i).parent := by
    intro i; simp only [Graph.set]; split
    · next e => subst e; exact hp
    · rfl
  have e2 : ∀ i, ((g.set n x).node i).children = (g.node i).children := by
    intro i; simp only [Graph.set]; split
    · next e => subst e; exact hc
    · rfl
  have e3 : ∀ i, ((g.set n x).node i).asset = (g.node i).asset := by
    intro i; simp only [Graph.set]; split
    · next e => subst e; exact ha
    · rfl
  constructor
  · exact h.noReg
  · exact h.pos
  · rw [e1]; exact h.root
  · rw [e3]; exact h.rootFrame
  · intro c; rw [e1]; exact h.nonroot c
  · intro c p; rw [e1, e2]; exact h.up c p
  · intro c p; rw [e1, e2]; exact h.down c p

theorem addChild_node (d : Local V) (g : Graph V S) (p : Nat) (f : Bool) (a : Option Nat) (i : Nat) :
    (addChild d g p f a).node i =
      if i = g.count then freshNode d f a (some p)
      else if i = p then { g.node p with children := (g.node p).children ++ [g.count] }
      else g.node i := rfl

theorem wf_addChild {g : Graph V S} (h : WF g) (d : Local V) (p : Nat) (f : Bool) (a : Option Nat)
    (hp : p < g.count) : WF (addChild d g p f a) := by
  have hcnt : (addChild d g p f a).count = g.count + 1 := rfl
  have hpos := h.pos
  have par : ∀ i, i ≠ g.count → ((addChild d g p f a).node i).parent = (g.node i).parent := by
    intro i hi
    rw [addChild_node]; simp only [hi, if_false]
    split
    · next e => subst e; rfl
    · rfl
  have parN : ((addChild d g p f a).node g.count).parent = some p := by
    rw [addChild_node]; simp [freshNode]
  have chi : ∀ i, i ≠ g.count → i ≠ p → ((addChild d g p f a).node i).children = (g.node i).children := by
    intro i hi hip
    rw [addChild_node]; simp [hi, hip]
  have chiP : ((addChild d g p f a).node p).children = (g.node p).children ++ [g.count] := by
    rw [addChild_node]; simp [Nat.ne_of_lt hp]
  have chiN : ((addChild d g p f a).node g.count).children = [] := by
    rw [addChild_node]; simp [freshNode]
  constructor
  · exact h.noReg
  · rw [hcnt]; omega
  · rw [par 0 (by omega)]; exact h.root
  · rw [addChild_node]
    have : (0 : Nat) ≠ g.count := by omega
    simp only [this, if_false]
    split
    · next e => subst e; exact h.rootFrame
    · exact h.rootFrame
  · intro c hc h0
    rw [hcnt] at hc
    by_cases e : c = g.count
    · subst e; exact ⟨p, parN⟩
    · rw [par c e]; exact h.nonroot c (by omega) h0
  · intro c q hc hq
    rw [hcnt] at hc
    by_cases e : c = g.count
    · subst e
      rw [parN] at hq; simp at hq; subst hq
      exact ⟨hp, by rw [chiP]; simp⟩
    · rw [par c e] at hq
      obtain ⟨h1, h2⟩ := h.up c q (by omega) hq
      refine ⟨h1, ?_⟩
      by_cases eq : q = p
      · subst eq; rw [chiP]; simp [h2]
      · rw [chi q (by omega) eq]; exact h2
  · intro c q hq hc
    rw [hcnt] at hq
    by_cases e : q = g.count
    · subst e; rw [chiN] at hc; simp at hc
    · by_cases eq : q = p
      · subst eq
        rw [chiP] at hc
        simp at hc
        rcases hc with hc | hc
        · obtain ⟨h1, h2⟩ := h.down c q (by omega) hc
          exact ⟨by rw [hcnt]; omega, by rw [par c (by omega)]; exact h2⟩
        · subst hc; exact ⟨by rw [hcnt]; omega, parN⟩
      · rw [chi q e eq] at hc
        obtain ⟨h1, h2⟩ := h.down c q (by omega) hc
        exact ⟨by rw [hcnt]; omega, by rw [par c (by omega)]; exact h2⟩

theorem deleteChild_throws {g : Graph V S} (h : WF g) (p c : Nat) (hc : c < g.count) :
    deleteChild g p c = (g, .throw) := by
  unfold deleteChild
  split
  · rfl
  · next hp =>
    simp at hp
    obtain ⟨_, h2⟩ := h.up c p hc hp
    simp [h2, h.noReg]

theorem wf_setSpice {g : Graph V S} (h : WF g) (n : Nat) (o f : S) : WF (setSpice g n o f).1 := by
  unfold setSpice
  split
  · exact h
  · split
    · exact h
    · exact wf_set h n _ rfl rfl rfl

theorem wf_step (d : Local V) {g : Graph V S} (h : WF g) (op : Op V S) : WF (step d g op).1 := by
  cases op <;> simp only [step]
  case newSubframe p =>
    split
    · next hf => simp [frameOk] at hf; exact wf_addChild h d p _ _ hf.1
    · exact h
  case newSpiceSubframe p o f =>
    split
    · next hf =>
      simp [frameOk] at hf
      have hw := wf_setSpice (wf_addChild h d p true none hf.1) g.count o f
      split <;> next e => rw [e] at hw; exact hw
    · exact h
  case newInstance p a =>
    split
    · next hf => simp [frameOk] at hf; exact wf_addChild h d p _ _ hf.1
    · exact h
  case deleteChild p c =>
    split
    · next hf =>
      simp [nodeOk] at hf
      rw [deleteChild_throws h p c hf.2]; exact h
    · exact h
  case setSpice n o f =>
    split
    · exact wf_setSpice h n o f
    · exact h
  all_goals
    split
    · exact h
    · exact wf_set h _ _ rfl rfl rfl

/-- "SPICE child ⇒ SPICE parent" for one component. -/
def SpiceUp (mode : Node V S → Mode) (g : Graph V S) : Prop :=
  ∀ c p, c < g.count → (g.node c).parent = some p → mode (g.node c) = .spice → mode (g.node p) = .spice

/-- Generic preservation: node `n` is replaced; either its mode is unchanged, or it becomes SPICE with a SPICE
(or no) parent, or it had no SPICE child. -/
theorem spiceUp_set {mode : Node V S → Mode} {g : Graph V S} (h : WF g) (hs : SpiceUp mode g) (n : Nat)
    (x : Node V S) (hp : x.parent = (g.node n).parent)
    (hx : mode x = mode (g.node n)
      ∨ (mode x = .spice ∧ ∀ p, (g.node n).parent = some p → mode (g.node p) = .spice)
      ∨ (mode x ≠ .spice ∧ ∀ c ∈ (g.node n).children, mode (g.node c) ≠ .spice)) :
    SpiceUp mode (g.set n x) := by
  have np : ∀ i, ((g.set n x).node i).parent = (g.node i).parent := by
    intro i; simp only [Graph.set]; split
    · next e => subst e; exact hp
    · rfl
  intro c p hc hcp hm
  have hc' : c < g.count := hc
  rw [np] at hcp
  obtain ⟨hlt, hmem⟩ := h.up c p hc' hcp
  have hcpne : c ≠ p := by omega
  simp only [Graph.set] at hm ⊢
  by_cases ec : c = n
  · subst ec
    have : p ≠ c := fun e => hcpne e.symm
    simp only [if_true] at hm
    simp only [this, if_false]
    rcases hx with hx | hx | hx
    · rw [hx] at hm; exact hs c p hc' hcp hm
    · exact hx.2 p hcp
    · exact absurd hm hx.1
  · simp only [ec, if_false] at hm
    have hold := hs c p hc' hcp hm
    by_cases ep : p = n
    · subst ep
      simp only [if_true]
      rcases hx with hx | hx | hx
      · rw [hx]; exact hold
      · exact hx.1
      · exact absurd hm (hx.2 c hmem)
    · simp only [ep, if_false]; exact hold

theorem spiceUp_addChild {mode : Node V S → Mode} {g : Graph V S} (h : WF g) (hs : SpiceUp mode g)
    (d : Local V) (p : Nat) (f : Bool) (a : Option Nat) (hp : p < g.count)
    (hfresh : mode (freshNode d f a (some p)) ≠ .spice)
    (hch : ∀ (y : Node V S) l, mode { y with children := l } = mode y) :
    SpiceUp mode (addChild d g p f a) := by
  intro c q hc hcq hm
  have hmode : ∀ i, i ≠ g.count → mode ((addChild d g p f a).node i) = mode (g.node i) := by
    intro i hi; rw [addChild_node]; simp only [hi, if_false]
    split
    · next e => subst e; rw [hch]
    · rfl
  have hpar : ∀ i, i ≠ g.count → ((addChild d g p f a).node i).parent = (g.node i).parent := by
    intro i hi; rw [addChild_node]; simp only [hi, if_false]
    split
    · next e => subst e; rfl
    · rfl
  have hc' : c < g.count + 1 := hc
  by_cases e : c = g.count
  · subst e
    rw [addChild_node] at hm; simp only [if_true] at hm
    exact absurd hm hfresh
  · rw [hmode c e] at hm
    rw [hpar c e] at hcq
    obtain ⟨h1, _⟩ := h.up c q (by omega) hcq
    rw [hmode q (by omega)]
    exact hs c q (by omega) hcq hm

theorem mustNot_pos {g : Graph V S} {n : Nat} (h : posMustBeSpice g n = false) :
    ∀ c ∈ (g.node n).children, (g.node c).posMode ≠ .spice := by
  intro c hc; simp [posMustBeSpice] at h; exact h c hc

theorem mustNot_rot {g : Graph V S} {n : Nat} (h : rotMustBeSpice g n = false) :
    ∀ c ∈ (g.node n).children, (g.node c).rotMode ≠ .spice := by
  intro c hc; simp [rotMustBeSpice] at h; exact h c hc

theorem canBe_pos {g : Graph V S} {n : Nat} (h : posCanBeSpice g n = true) :
    ∀ p, (g.node n).parent = some p → (g.node p).posMode = .spice := by
  intro p hp; simp [posCanBeSpice, hp] at h; exact h

theorem canBe_rot {g : Graph V S} {n : Nat} (h : rotCanBeSpice g n = true) :
    ∀ p, (g.node n).parent = some p → (g.node p).rotMode = .spice := by
  intro p hp; simp [rotCanBeSpice, hp] at h; exact h

end Huira.SceneGraph
