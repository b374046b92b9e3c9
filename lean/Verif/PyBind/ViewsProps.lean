import Verif.PyBind.ViewsModel
import Mathlib.Tactic.Linarith
/-!
# Python bindings: numpy views of images (C120)
-/
namespace Huira.PyViews

set_option linter.unusedSimpArgs false

/-- What holds in every reachable state. -/
structure Inv (h : Heap) : Prop where
  objOwner : ∀ x ∈ h.objs, x.owner < h.owners
  slotBound : ∀ o < h.owners, ∀ k < h.arity o, (h.slots o k).buf < h.next
  slotCap : ∀ o < h.owners, ∀ k < h.arity o, (h.slots o k).size.1 * (h.slots o k).size.2 ≤ h.cap (h.slots o k).buf
  distinct : ∀ o < h.owners, ∀ k < h.arity o, ∀ o' < h.owners, ∀ k' < h.arity o',
    (h.slots o k).buf = (h.slots o' k').buf → o = o' ∧ k = k'
  live_iff : ∀ b, h.live b = true ↔ ∃ o < h.owners, ∃ k < h.arity o, h.reach o = true ∧ (h.slots o k).buf = b
  member : ∀ x ∈ h.objs, ∀ k, x.what = .member k → k < h.arity x.owner
  view : ∀ x ∈ h.objs, ∀ k b sz, x.what = .view k b sz →
    k < h.arity x.owner ∧ b < h.next ∧ sz.1 * sz.2 ≤ h.cap b ∧
    ∀ o < h.owners, ∀ k' < h.arity o, (h.slots o k').buf = b → o = x.owner ∧ k' = k

theorem reach_iff (h : Heap) (o : ℕ) : h.reach o = true ↔ ∃ x ∈ h.objs, x.held = true ∧ x.owner = o := by
  simp [Heap.reach]

theorem Inv.init : Inv Heap.init := by
  constructor <;> simp [Heap.init]

theorem parent_spec {h : Heap} {i k o : ℕ} {ts : List ℕ} (hp : h.parent i k ts = some o) :
    h.objs[i]? = some ⟨o, .whole, true⟩ ∧ k < h.arity o ∧ h.arity o ∈ ts := by
  unfold Heap.parent at hp
  split at hp
  · rename_i o' heq
    split_ifs at hp with hk
    cases hp
    exact ⟨heq, hk.1, hk.2⟩
  · cases hp

theorem image_spec {h : Heap} (hi : Inv h) {i o k : ℕ} (hp : h.image i = some (o, k)) :
    ∃ x ∈ h.objs, x.held = true ∧ x.owner = o ∧ k < h.arity o := by
  unfold Heap.image at hp
  split at hp
  · rename_i o' heq
    split_ifs at hp with hk
    cases hp
    exact ⟨_, List.mem_of_getElem? heq, rfl, rfl, by rw [hk]; decide⟩
  · rename_i o' k' heq
    cases hp
    exact ⟨_, List.mem_of_getElem? heq, rfl, rfl, hi.member _ (List.mem_of_getElem? heq) _ rfl⟩
  · cases hp

theorem Inv.setSize {h : Heap} (hi : Inv h) (o k : ℕ) (size : ℕ × ℕ)
    (hc : size.1 * size.2 ≤ h.cap (h.slots o k).buf) : Inv (h.setSlot o k ⟨(h.slots o k).buf, size⟩) := by
  have hb : ∀ o' k', ((h.setSlot o k ⟨(h.slots o k).buf, size⟩).slots o' k').buf = (h.slots o' k').buf := by
    intro o' k'
    simp only [Heap.setSlot]
    split_ifs with hh
    · rw [hh.1, hh.2]
    · rfl
  refine ⟨hi.objOwner, ?_, ?_, ?_, ?_, hi.member, ?_⟩
  · intro o' ho' k' hk'; rw [hb]; exact hi.slotBound o' ho' k' hk'
  · intro o' ho' k' hk'
    rw [hb]
    simp only [Heap.setSlot]
    split_ifs with hh
    · rw [hh.1, hh.2]; exact hc
    · exact hi.slotCap o' ho' k' hk'
  · intro o1 h1 k1 h2 o2 h3 k2 h4 he
    rw [hb, hb] at he
    exact hi.distinct o1 h1 k1 h2 o2 h3 k2 h4 he
  · intro b
    simp only [hb]
    exact hi.live_iff b
  · intro x hx k' b sz hw
    obtain ⟨a1, a2, a3, a4⟩ := hi.view x hx k' b sz hw
    refine ⟨a1, a2, a3, ?_⟩
    intro o' ho' k2 hk2 he
    rw [hb] at he
    exact a4 o' ho' k2 hk2 he

theorem Inv.replace {h : Heap} (hi : Inv h) (o k : ℕ) (size : ℕ × ℕ) (ho : o < h.owners) (hk : k < h.arity o)
    (hr : h.reach o = true) : Inv (h.replace o k size) := by
  have hs : ∀ o' k', (h.replace o k size).slots o' k' = if o' = o ∧ k' = k then ⟨h.next, size⟩ else h.slots o' k' :=
    fun _ _ => rfl
  have hob := hi.slotBound o ho k hk
  refine ⟨hi.objOwner, ?_, ?_, ?_, ?_, hi.member, ?_⟩
  · intro o' ho' k' hk'
    rw [hs]
    show _ < h.next + 1
    split_ifs with hh
    · simp
    · exact lt_of_lt_of_le (hi.slotBound o' ho' k' hk') (by omega)
  · intro o' ho' k' hk'
    rw [hs]
    show _ ≤ (if _ = h.next then size.1 * size.2 else h.cap _)
    split_ifs with hh h2 h2
    · rfl
    · exact absurd rfl h2
    · exact absurd (hi.slotBound o' ho' k' hk') (by omega)
    · exact hi.slotCap o' ho' k' hk'
  · intro o1 h1 k1 h2 o2 h3 k2 h4 he
    rw [hs, hs] at he
    have b1 := hi.slotBound o1 h1 k1 h2
    have b2 := hi.slotBound o2 h3 k2 h4
    split_ifs at he with e1 e2 e2
    · exact ⟨e1.1.trans e2.1.symm, e1.2.trans e2.2.symm⟩
    · simp only at he; omega
    · simp only at he; omega
    · exact hi.distinct o1 h1 k1 h2 o2 h3 k2 h4 he
  · intro b
    show (if b = (h.slots o k).buf then false else if b = h.next then true else h.live b) = true ↔
      ∃ o' < h.owners, ∃ k' < h.arity o', h.reach o' = true ∧ ((h.replace o k size).slots o' k').buf = b
    simp only [hs]
    split_ifs with e1 e2
    · constructor
      · intro hf; cases hf
      · rintro ⟨o', ho', k', hk', _, he⟩
        split_ifs at he with e3
        · simp only at he; omega
        · exact absurd (hi.distinct o' ho' k' hk' o ho k hk (he.trans e1)) e3
    · constructor
      · intro _
        exact ⟨o, ho, k, hk, hr, by simp [e2]⟩
      · intro _; rfl
    · rw [hi.live_iff b]
      constructor
      · rintro ⟨o', ho', k', hk', hr', he⟩
        refine ⟨o', ho', k', hk', hr', ?_⟩
        rw [if_neg]
        · exact he
        · rintro ⟨rfl, rfl⟩; exact e1 he.symm
      · rintro ⟨o', ho', k', hk', hr', he⟩
        split_ifs at he with e3
        · exact absurd he.symm e2
        · exact ⟨o', ho', k', hk', hr', he⟩
  · intro x hx k' b sz hw
    obtain ⟨a1, a2, a3, a4⟩ := hi.view x hx k' b sz hw
    refine ⟨a1, lt_of_lt_of_le a2 (Nat.le_succ _), ?_, ?_⟩
    · show _ ≤ (if b = h.next then size.1 * size.2 else h.cap b)
      rw [if_neg (by omega)]; exact a3
    · intro o' ho' k2 hk2 he
      rw [hs] at he
      split_ifs at he with e3
      · simp only at he; omega
      · exact a4 o' ho' k2 hk2 he

theorem Inv.assign {h : Heap} (hi : Inv h) (o k : ℕ) (size : ℕ × ℕ) (fresh : Bool) (ho : o < h.owners)
    (hk : k < h.arity o) (hr : h.reach o = true) : Inv (h.assign o k size fresh) := by
  unfold Heap.assign
  split_ifs with hc
  · exact hi.replace o k size ho hk hr
  · refine hi.setSize o k size ?_
    simp only [Bool.or_eq_true, decide_eq_true_eq, not_or, not_lt] at hc
    exact hc.2

theorem Inv.enable {h : Heap} (hi : Inv h) (o k : ℕ) (on : Bool) (ho : o < h.owners)
    (hk : k < h.arity o) (hr : h.reach o = true) : Inv (h.enable o k on) := by
  unfold Heap.enable
  split_ifs
  · exact hi
  · exact hi.replace o k _ ho hk hr
  · exact hi.replace o k _ ho hk hr

/-- What enabling a channel leaves alone. -/
theorem enable_frame (h : Heap) (o k : ℕ) (on : Bool) :
    (h.enable o k on).owners = h.owners ∧ (h.enable o k on).arity = h.arity ∧ (h.enable o k on).objs = h.objs := by
  unfold Heap.enable Heap.replace Heap.setSlot
  split_ifs <;> simp

theorem Inv.push {h : Heap} (hi : Inv h) (x : PyObj) (ho : x.owner < h.owners) (hr : h.reach x.owner = true)
    (hm : ∀ k, x.what = .member k → k < h.arity x.owner)
    (hv : ∀ k b sz, x.what = .view k b sz → k < h.arity x.owner ∧ b < h.next ∧ sz.1 * sz.2 ≤ h.cap b ∧
      ∀ o < h.owners, ∀ k' < h.arity o, (h.slots o k').buf = b → o = x.owner ∧ k' = k) : Inv (h.push x) := by
  have hreach : ∀ o, (h.push x).reach o = h.reach o := by
    intro o
    rw [Bool.eq_iff_iff, reach_iff, reach_iff]
    constructor
    · rintro ⟨y, hy, hy1, hy2⟩
      rcases List.mem_append.1 hy with hy | hy
      · exact ⟨y, hy, hy1, hy2⟩
      · rw [List.mem_singleton] at hy
        subst hy
        rw [← reach_iff, ← hy2]; exact hr
    · rintro ⟨y, hy, hy1, hy2⟩
      exact ⟨y, List.mem_append_left _ hy, hy1, hy2⟩
  refine ⟨?_, hi.slotBound, hi.slotCap, hi.distinct, ?_, ?_, ?_⟩
  · intro y hy
    rcases List.mem_append.1 hy with hy | hy
    · exact hi.objOwner y hy
    · rw [List.mem_singleton.1 hy]; exact ho
  · intro b
    simp only [hreach]
    exact hi.live_iff b
  · intro y hy
    rcases List.mem_append.1 hy with hy | hy
    · exact hi.member y hy
    · rw [List.mem_singleton.1 hy]; exact hm
  · intro y hy
    rcases List.mem_append.1 hy with hy | hy
    · exact hi.view y hy
    · rw [List.mem_singleton.1 hy]; exact hv

theorem Inv.create {h : Heap} (hi : Inv h) (sizes : List (ℕ × ℕ)) (res : ℕ × ℕ) : Inv (h.create sizes res) := by
  have hlt : ∀ {o}, o < h.owners + 1 → o ≠ h.owners → o < h.owners := by intro o h1 h2; omega
  refine ⟨?_, ?_, ?_, ?_, ?_, ?_, ?_⟩
  · intro x hx
    rcases List.mem_append.1 hx with hx | hx
    · exact Nat.lt_succ_of_lt (hi.objOwner x hx)
    · rw [List.mem_singleton.1 hx]; exact Nat.lt_succ_self _
  · intro o ho k hk
    simp only [Heap.create] at ho hk ⊢
    split_ifs at hk ⊢ with e
    · simp only; omega
    · exact lt_of_lt_of_le (hi.slotBound o (hlt ho e) k hk) (by omega)
  · intro o ho k hk
    simp only [Heap.create] at ho hk ⊢
    split_ifs at hk ⊢ with e e2 e2
    · simp
    · simp at e2
    · exact absurd (hi.slotBound o (hlt ho e) k hk) (by omega)
    · exact hi.slotCap o (hlt ho e) k hk
  · intro o ho k hk o' ho' k' hk' he
    simp only [Heap.create] at ho hk ho' hk' he
    split_ifs at hk hk' he with e1 e2 e2
    · simp only at he; omega
    · have := hi.slotBound o' (hlt ho' e2) k' hk'
      simp only at he; omega
    · have := hi.slotBound o (hlt ho e1) k hk
      simp only at he; omega
    · exact hi.distinct o (hlt ho e1) k hk o' (hlt ho' e2) k' hk' he
  · intro b
    have hreach : ∀ o < h.owners, (h.create sizes res).reach o = h.reach o := by
      intro o ho
      rw [Bool.eq_iff_iff, reach_iff, reach_iff]
      constructor
      · rintro ⟨y, hy, hy1, hy2⟩
        rcases List.mem_append.1 hy with hy | hy
        · exact ⟨y, hy, hy1, hy2⟩
        · rw [List.mem_singleton] at hy
          subst hy
          simp only at hy2; omega
      · rintro ⟨y, hy, hy1, hy2⟩
        exact ⟨y, List.mem_append_left _ hy, hy1, hy2⟩
    have hnew : (h.create sizes res).reach h.owners = true := by
      rw [reach_iff]
      exact ⟨_, List.mem_append_right _ (List.mem_singleton.2 rfl), rfl, rfl⟩
    show (if h.next ≤ b ∧ b < h.next + sizes.length then true else h.live b) = true ↔
      ∃ o < h.owners + 1, ∃ k < (if o = h.owners then sizes.length else h.arity o), (h.create sizes res).reach o = true ∧
        (if o = h.owners then (⟨h.next + k, sizes.getD k (0, 0)⟩ : Slot) else h.slots o k).buf = b
    split_ifs with e
    · refine ⟨fun _ => ⟨h.owners, Nat.lt_succ_self _, b - h.next, ?_, hnew, ?_⟩, fun _ => rfl⟩
      · rw [if_pos rfl]; omega
      · rw [if_pos rfl]; simp only; omega
    · rw [hi.live_iff b]
      constructor
      · rintro ⟨o, ho, k, hk, hr, he⟩
        have hne : o ≠ h.owners := by omega
        refine ⟨o, by omega, k, ?_, ?_, ?_⟩
        · rw [if_neg hne]; exact hk
        · rw [hreach o ho]; exact hr
        · rw [if_neg hne]; exact he
      · rintro ⟨o, ho, k, hk, hr, he⟩
        by_cases hne : o = h.owners
        · rw [if_pos hne] at hk he
          simp only at he; omega
        · rw [if_neg hne] at hk he
          rw [hreach o (hlt ho hne)] at hr
          exact ⟨o, hlt ho hne, k, hk, hr, he⟩
  · intro x hx k hw
    rcases List.mem_append.1 hx with hx | hx
    · have h1 := hi.objOwner x hx
      simp only [Heap.create]
      rw [if_neg (by omega)]
      exact hi.member x hx k hw
    · rw [List.mem_singleton.1 hx] at hw; cases hw
  · intro x hx k b sz hw
    rcases List.mem_append.1 hx with hx | hx
    · have h1 := hi.objOwner x hx
      obtain ⟨a1, a2, a3, a4⟩ := hi.view x hx k b sz hw
      simp only [Heap.create]
      refine ⟨?_, by omega, ?_, ?_⟩
      · rw [if_neg (by omega)]; exact a1
      · rw [if_neg (by omega)]; exact a3
      · intro o ho k' hk' he
        split_ifs at hk' he with e
        · simp only at he; omega
        · exact a4 o (hlt ho e) k' hk' he
    · rw [List.mem_singleton.1 hx] at hw; cases hw

theorem mem_modify_drop {l : List PyObj} {i : ℕ} {x : PyObj}
    (hx : x ∈ l.modify i fun x => { x with held := false }) :
    ∃ y ∈ l, x.owner = y.owner ∧ x.what = y.what ∧ (x.held = true → y = x) := by
  obtain ⟨j, hj⟩ := List.getElem?_of_mem hx
  rw [List.getElem?_modify] at hj
  rcases hl : l[j]? with _ | y
  · rw [hl] at hj; simp at hj
  · rw [hl] at hj
    have hy := List.mem_of_getElem? hl
    by_cases e : i = j
    · simp only [e, if_true, Option.map_eq_map, Option.map_some, Option.some.injEq] at hj
      subst hj
      exact ⟨y, hy, rfl, rfl, fun h => by simp at h⟩
    · simp only [e, if_false, Option.map_eq_map, Option.map_some, id, Option.some.injEq] at hj
      subst hj
      exact ⟨y, hy, rfl, rfl, fun _ => rfl⟩

theorem Inv.drop {h : Heap} (hi : Inv h) (i : ℕ) :
    Inv (Heap.collect { h with objs := h.objs.modify i fun x => { x with held := false } }) := by
  refine ⟨?_, hi.slotBound, hi.slotCap, hi.distinct, ?_, ?_, ?_⟩
  · intro x hx
    obtain ⟨y, hy, e1, _, _⟩ := mem_modify_drop hx
    rw [e1]; exact hi.objOwner y hy
  · intro b
    have hmono : ∀ o, Heap.reach { h with objs := h.objs.modify i fun x => { x with held := false } } o = true →
        h.reach o = true := by
      intro o ho
      rw [reach_iff] at ho ⊢
      obtain ⟨x, hx, h1, h2⟩ := ho
      obtain ⟨y, hy, e1, _, e3⟩ := mem_modify_drop hx
      have := e3 h1
      subst this
      exact ⟨y, hy, h1, h2⟩
    simp only [Heap.collect, Bool.and_eq_true, List.any_eq_true, List.mem_range, beq_iff_eq]
    rw [hi.live_iff b]
    constructor
    · rintro ⟨_, o, ho, hr, k, hk, he⟩
      exact ⟨o, ho, k, hk, hr, he⟩
    · rintro ⟨o, ho, k, hk, hr, he⟩
      exact ⟨⟨o, ho, k, hk, hmono o hr, he⟩, o, ho, hr, k, hk, he⟩
  · intro x hx k hw
    obtain ⟨y, hy, e1, e2, _⟩ := mem_modify_drop hx
    simp only [Heap.collect]
    rw [e1]; exact hi.member y hy k (e2 ▸ hw)
  · intro x hx k b sz hw
    obtain ⟨y, hy, e1, e2, _⟩ := mem_modify_drop hx
    simp only [Heap.collect]
    rw [e1]; exact hi.view y hy k b sz (e2 ▸ hw)

theorem reach_of_get {h : Heap} {i o : ℕ} {w : What} (hg : h.objs[i]? = some ⟨o, w, true⟩) : h.reach o = true :=
  (reach_iff h o).2 ⟨_, List.mem_of_getElem? hg, rfl, rfl⟩

theorem Inv.step {h : Heap} (hi : Inv h) (op : Op) : Inv (h.step op) := by
  cases op with
  | create sizes res => exact hi.create sizes res
  | property i k =>
    simp only [Heap.step]
    split
    · rename_i o hp
      obtain ⟨hg, hk, _⟩ := parent_spec hp
      have ho : o < h.owners := hi.objOwner _ (List.mem_of_getElem? hg)
      exact hi.push _ ho (reach_of_get hg)
        (fun k' hk' => by cases hk'; exact hk) (fun k' b sz hk' => by cases hk')
    · exact hi
  | asarray i =>
    simp only [Heap.step]
    split
    · rename_i o k hp
      obtain ⟨x, hx, hxh, rfl, hk⟩ := image_spec hi hp
      refine hi.push _ (hi.objOwner x hx) ((reach_iff _ _).2 ⟨x, hx, hxh, rfl⟩) (fun k' hk' => by cases hk') ?_
      intro k' b sz hk'
      cases hk'
      refine ⟨hk, hi.slotBound _ (hi.objOwner x hx) k hk, hi.slotCap _ (hi.objOwner x hx) k hk, ?_⟩
      intro o ho k' hk' he
      exact hi.distinct o ho k' hk' _ (hi.objOwner x hx) k hk he
    · exact hi
  | drop i => exact hi.drop i
  | assign i k size fresh =>
    simp only [Heap.step]
    split
    · rename_i o hp
      obtain ⟨hg, hk, _⟩ := parent_spec hp
      exact hi.assign o k size fresh (hi.objOwner _ (List.mem_of_getElem? hg)) hk (reach_of_get hg)
    · exact hi
  | enable i k on =>
    simp only [Heap.step]
    split
    · rename_i o hp
      obtain ⟨hg, hk, _⟩ := parent_spec hp
      have ho := hi.objOwner _ (List.mem_of_getElem? hg)
      have hr := reach_of_get hg
      split_ifs with e
      · subst e
        have hk5 : received < h.arity o := lt_trans (by decide) hk
        obtain ⟨f1, f2, f3⟩ := enable_frame h o received on
        refine (hi.enable o received on ho hk5 hr).enable o sensor on ?_ ?_ ?_
        · rw [f1]; exact ho
        · rw [f2]; exact hk
        · unfold Heap.reach; rw [f3]; exact hr
      · exact hi.enable o k on ho hk hr
    · exact hi
  | clear i =>
    simp only [Heap.step]
    split
    · exact hi.setSize _ _ _ (by simp)
    · exact hi
  | write i => exact hi
  | render i =>
    simp only [Heap.step]
    split
    · rename_i o hp
      obtain ⟨hg, hk, _⟩ := parent_spec hp
      split_ifs
      · exact hi.replace o received _ (hi.objOwner _ (List.mem_of_getElem? hg)) hk (reach_of_get hg)
      · exact hi
    · exact hi

theorem Inv.run {h : Heap} (hi : Inv h) (ops : List Op) : Inv (h.run ops) := by
  induction ops generalizing h with
  | nil => exact hi
  | cons op ops ih => exact ih (hi.step op)

theorem Heap.HoldsView.mem {h : Heap} {i o k b : ℕ} {size : ℕ × ℕ} (hv : h.HoldsView i o k b size) :
    (⟨o, .view k b size, true⟩ : PyObj) ∈ h.objs := List.mem_of_getElem? hv

theorem shared_live {h : Heap} (hi : Inv h) {i o k b : ℕ} {size : ℕ × ℕ} (hv : h.HoldsView i o k b size) :
    h.Shared o k b ↔ h.live b = true := by
  obtain ⟨a1, a2, a3, a4⟩ := hi.view _ hv.mem k b size rfl
  rw [hi.live_iff b]
  constructor
  · intro hs
    exact ⟨o, hi.objOwner _ hv.mem, k, a1, reach_of_get hv, hs⟩
  · rintro ⟨o', ho', k', hk', _, he⟩
    obtain ⟨e1, e2⟩ := a4 o' ho' k' hk' he
    simp only at e1
    subst e1 e2
    exact he

/-- C120 (partial): after every script, whatever objects were dropped in whatever order, the storage of a view the script
holds is alive exactly when the image the view was taken from still uses it; then every element can be accessed, and the view
and the image show the same pixels. Missing: an image can get new storage while a view of it is held. -/
theorem C120_alive_partial (ops : List Op) (i o k b : ℕ) (size : ℕ × ℕ)
    (hv : (Heap.init.run ops).HoldsView i o k b size) :
    ((Heap.init.run ops).Shared o k b ↔ (Heap.init.run ops).live b = true) ∧
    ((Heap.init.run ops).Shared o k b → (Heap.init.run ops).Accessible b size) := by
  have hi := Inv.init.run ops
  refine ⟨shared_live hi hv, fun hs => Or.inr ⟨(shared_live hi hv).1 hs, ?_⟩⟩
  exact (hi.view _ hv.mem k b size rfl).2.2.1

/-- C120 (partial): two views show each other's writes exactly when they were taken from the same member image of the same
owner: storage is never shared between images. -/
theorem C120_disjoint_partial (ops : List Op) (i o k b i' o' k' b' : ℕ) (size size' : ℕ × ℕ)
    (hv : (Heap.init.run ops).HoldsView i o k b size) (hv' : (Heap.init.run ops).HoldsView i' o' k' b' size')
    (hs : (Heap.init.run ops).Shared o k b) (hs' : (Heap.init.run ops).Shared o' k' b') :
    b = b' ↔ (o = o' ∧ k = k') := by
  have hi := Inv.init.run ops
  constructor
  · intro e
    unfold Heap.Shared at hs hs'
    exact hi.distinct o (hi.objOwner _ hv.mem) k (hi.view _ hv.mem k b size rfl).1 o' (hi.objOwner _ hv'.mem) k'
      (hi.view _ hv'.mem k' b' size' rfl).1 (by rw [hs, hs', e])
  · rintro ⟨rfl, rfl⟩
    exact hs.symm.trans hs'

/-- C120 (partial): no storage is lost: a block that is not given back belongs to an image of an owner that the script still
reaches through an object it holds. -/
theorem C120_no_leak_partial (ops : List Op) (b : ℕ) (hb : (Heap.init.run ops).live b = true) :
    ∃ x ∈ (Heap.init.run ops).objs, x.held = true ∧ ∃ k, (Heap.init.run ops).Shared x.owner k b := by
  obtain ⟨o, _, k, _, hr, he⟩ := ((Inv.init.run ops).live_iff b).1 hb
  obtain ⟨x, hx, h1, rfl⟩ := (reach_iff _ _).1 hr
  exact ⟨x, hx, h1, k, he⟩

/-! ### Which statements disturb a view -/

theorem setSlot_buf (h : Heap) (o k : ℕ) (sz : ℕ × ℕ) (o' k' : ℕ) :
    ((h.setSlot o k ⟨(h.slots o k).buf, sz⟩).slots o' k').buf = (h.slots o' k').buf := by
  simp only [Heap.setSlot]
  split_ifs with hh
  · rw [hh.1, hh.2]
  · rfl

theorem replace_other (h : Heap) (o k : ℕ) (sz : ℕ × ℕ) (o' k' : ℕ) (hne : ¬ (o' = o ∧ k' = k)) :
    (h.replace o k sz).slots o' k' = h.slots o' k' := by
  simp only [Heap.replace, Heap.setSlot]
  rw [if_neg hne]

theorem enable_other (h : Heap) (o k : ℕ) (on : Bool) (o' k' : ℕ) (hne : ¬ (o' = o ∧ k' = k)) :
    (h.enable o k on).slots o' k' = h.slots o' k' := by
  unfold Heap.enable
  split_ifs
  · rfl
  · exact replace_other h o k _ o' k' hne
  · exact replace_other h o k _ o' k' hne

theorem step_shared {h : Heap} (hi : Inv h) (op : Op) (o k : ℕ) (ho : o < h.owners)
    (hop : ∀ i, op.Touches i k → h.objs[i]? ≠ some ⟨o, .whole, true⟩) :
    ((h.step op).slots o k).buf = (h.slots o k).buf := by
  cases op with
  | create sizes res =>
    simp only [Heap.step, Heap.create]
    rw [if_neg (by omega)]
  | property i k' => simp only [Heap.step]; split <;> rfl
  | asarray i => simp only [Heap.step]; split <;> rfl
  | drop i => rfl
  | assign i k' size fresh =>
    simp only [Heap.step]
    split
    · rename_i o' hp
      obtain ⟨hg, _, _⟩ := parent_spec hp
      have hne : ¬ (o = o' ∧ k = k') := by
        rintro ⟨rfl, rfl⟩
        exact hop i ⟨rfl, rfl⟩ hg
      unfold Heap.assign
      split_ifs
      · rw [replace_other _ _ _ _ _ _ hne]
      · exact setSlot_buf h o' k' size o k
    · rfl
  | enable i k' on =>
    simp only [Heap.step]
    split
    · rename_i o' hp
      obtain ⟨hg, _, _⟩ := parent_spec hp
      have hne : ¬ (o = o' ∧ k = k') := by
        rintro ⟨rfl, rfl⟩
        exact hop i ⟨rfl, Or.inl rfl⟩ hg
      split_ifs with e
      · subst e
        have hne2 : ¬ (o = o' ∧ k = received) := by
          rintro ⟨rfl, rfl⟩
          exact hop i ⟨rfl, Or.inr ⟨rfl, rfl⟩⟩ hg
        rw [enable_other _ _ _ _ _ _ hne, enable_other _ _ _ _ _ _ hne2]
      · rw [enable_other _ _ _ _ _ _ hne]
    · rfl
  | clear i =>
    simp only [Heap.step]
    split
    · exact setSlot_buf h _ _ _ o k
    · rfl
  | write i => rfl
  | render i =>
    simp only [Heap.step]
    split
    · rename_i o' hp
      obtain ⟨hg, _, _⟩ := parent_spec hp
      have hne : ¬ (o = o' ∧ k = received) := by
        rintro ⟨rfl, rfl⟩
        exact hop i ⟨rfl, rfl⟩ hg
      split_ifs
      · rw [replace_other _ _ _ _ _ _ hne]
      · rfl
    · rfl

/-- C120 (partial): only three kinds of statements can take a view's storage away, and only those on the very image the view
was taken from: assigning a new image to the bundle's attribute, switching the channel, and rendering (for the received
power). Every other statement, dropping the frame buffer itself included, keeps the view valid as long as the script holds
it. -/
theorem C120_undisturbed_partial (ops : List Op) (op : Op) (i o k b : ℕ) (size : ℕ × ℕ)
    (hv : (Heap.init.run ops).HoldsView i o k b size) (hs : (Heap.init.run ops).Shared o k b)
    (hop : ∀ j, op.Touches j k → (Heap.init.run ops).objs[j]? ≠ some ⟨o, .whole, true⟩)
    (hv' : ((Heap.init.run ops).step op).HoldsView i o k b size) :
    ((Heap.init.run ops).step op).Shared o k b ∧ ((Heap.init.run ops).step op).Accessible b size := by
  have hi := Inv.init.run ops
  have hs' : ((Heap.init.run ops).step op).Shared o k b := by
    unfold Heap.Shared
    rw [step_shared hi op o k (hi.objOwner _ hv.mem) hop]
    exact hs
  refine ⟨hs', Or.inr ⟨(shared_live (hi.step op) hv').1 hs', ?_⟩⟩
  exact ((hi.step op).view _ hv'.mem k b size rfl).2.2.1

/-- C120 (partial): in a script that never assigns to a bundle, switches a channel or renders after its first view was made,
every view stays valid and coherent to the end, whatever is dropped. -/
theorem C120_quiet_partial (setup ops : List Op) (hq : ∀ op ∈ ops, ∀ j k, ¬ op.Touches j k)
    (hn : ∀ x ∈ (Heap.init.run setup).objs, ∀ k b sz, x.what ≠ .view k b sz)
    (i o k b : ℕ) (size : ℕ × ℕ) (hv : ((Heap.init.run setup).run ops).HoldsView i o k b size) :
    ((Heap.init.run setup).run ops).Shared o k b ∧ ((Heap.init.run setup).run ops).Accessible b size := by
  have key : ∀ (ops : List Op) (h : Heap), Inv h → (∀ op ∈ ops, ∀ j k, ¬ op.Touches j k) →
      (∀ x ∈ h.objs, ∀ k b sz, x.what = .view k b sz → h.Shared x.owner k b) →
      ∀ x ∈ (h.run ops).objs, ∀ k b sz, x.what = .view k b sz → (h.run ops).Shared x.owner k b := by
    intro ops
    induction ops with
    | nil => intro h _ _ hx; exact hx
    | cons op ops ih =>
      intro h hi hq hx
      refine ih (h.step op) (hi.step op) (fun op' ho' => hq op' (List.mem_cons_of_mem _ ho')) ?_
      intro x hx' k b sz hw
      have hold : ∀ y ∈ h.objs, y.owner = x.owner → y.what = x.what → (h.step op).Shared x.owner k b := by
        intro y hy e1 e2
        unfold Heap.Shared
        rw [step_shared hi op x.owner k (e1 ▸ hi.objOwner y hy) (fun j ht => absurd ht (hq op List.mem_cons_self j k))]
        have := hx y hy k b sz (e2.trans hw)
        rw [e1] at this
        exact this
      have hq' := hq op List.mem_cons_self
      cases op with
      | create sizes res =>
        rcases List.mem_append.1 hx' with hy | hy
        · exact hold x hy rfl rfl
        · rw [List.mem_singleton.1 hy] at hw; cases hw
      | property i k' =>
        simp only [Heap.step] at hx'
        split at hx'
        · rcases List.mem_append.1 hx' with hy | hy
          · exact hold x hy rfl rfl
          · rw [List.mem_singleton.1 hy] at hw; cases hw
        · exact hold x hx' rfl rfl
      | asarray i =>
        have hsl : ((h.step (.asarray i)).slots) = h.slots := by simp only [Heap.step]; split <;> rfl
        simp only [Heap.step] at hx'
        split at hx'
        · rename_i o k' hp
          rcases List.mem_append.1 hx' with hy | hy
          · exact hold x hy rfl rfl
          · rw [List.mem_singleton.1 hy] at hw ⊢
            cases hw
            unfold Heap.Shared
            rw [hsl]
        · exact hold x hx' rfl rfl
      | drop i =>
        obtain ⟨y, hy, e1, e2, _⟩ := mem_modify_drop hx'
        exact hold y hy e1.symm e2.symm
      | assign i k' size fresh => exact absurd ⟨rfl, rfl⟩ (hq' i k')
      | enable i k' on => exact absurd ⟨rfl, Or.inl rfl⟩ (hq' i k')
      | clear i =>
        have : (h.step (.clear i)).objs = h.objs := by simp only [Heap.step]; split <;> rfl
        rw [this] at hx'
        exact hold x hx' rfl rfl
      | write i => exact hold x hx' rfl rfl
      | render i => exact absurd ⟨rfl, rfl⟩ (hq' i received)
  have hi0 := Inv.init.run setup
  have hi := hi0.run ops
  have hs := key ops _ hi0 hq (fun x hx k b sz hw => absurd hw (hn x hx k b sz)) _ hv.mem k b size rfl
  exact ⟨hs, Or.inr ⟨(shared_live hi hv).1 hs, (hi.view _ hv.mem k b size rfl).2.2.1⟩⟩

/-- Switching a channel on that is on already disturbs nothing. -/
theorem C120_enable_again_partial (h : Heap) (i k o : ℕ) (hk : k ≠ sensor) (hp : h.parent i k [7] = some o)
    (he : (h.slots o k).size = h.res o) : h.step (.enable i k true) = h := by
  simp only [Heap.step, hp, if_neg hk, Heap.enable, he, if_true]

/-! ### Violations -/

/-- Full statement: as long as the script holds a view, its elements can be accessed. -/
def C120_full : Prop :=
  ∀ (ops : List Op) (i o k b : ℕ) (size : ℕ × ℕ), (Heap.init.run ops).HoldsView i o k b size →
    (Heap.init.run ops).Accessible b size

/-- `fb = camera.make_frame_buffer(); fb.enable_received_power(); p = np.asarray(fb.received_power)`, then
`renderer.render(view, fb)`. -/
def renderScript : List Op :=
  [.create (List.replicate 7 (0, 0)) (4, 3), .enable 0 received true, .property 0 received, .asarray 1, .render 0]

/-- The same with the depth channel and `fb.enable_depth(False)`. -/
def disableScript : List Op :=
  [.create (List.replicate 7 (0, 0)) (4, 3), .enable 0 0 true, .property 0 0, .asarray 1, .enable 0 0 false]

/-- `a = np.asarray(bundle.image); bundle.image = bigger`. -/
def assignScript : List Op :=
  [.create [(2, 2), (0, 0)] (0, 0), .property 0 0, .asarray 1, .assign 0 0 (4, 4) false]

/-- **C120 is violated**: a view of the received power taken before a render reads storage that has been given back, and so
do a view of a channel that is switched off and a view of a bundle's image after a larger one was assigned. -/
theorem C120_violated :
    (∃ b, (Heap.init.run renderScript).HoldsView 2 0 received b (4, 3) ∧ ¬ (Heap.init.run renderScript).Accessible b (4, 3)) ∧
    (∃ b, (Heap.init.run disableScript).HoldsView 2 0 0 b (4, 3) ∧ ¬ (Heap.init.run disableScript).Accessible b (4, 3)) ∧
    (∃ b, (Heap.init.run assignScript).HoldsView 2 0 0 b (2, 2) ∧ ¬ (Heap.init.run assignScript).Accessible b (2, 2)) ∧
    ¬ C120_full := by
  have h1 : (Heap.init.run renderScript).HoldsView 2 0 received 7 (4, 3) ∧
      ¬ (Heap.init.run renderScript).Accessible 7 (4, 3) := by
    refine ⟨by unfold Heap.HoldsView; decide, ?_⟩
    rintro (h | ⟨h, _⟩)
    · exact absurd h (by decide)
    · exact absurd h (by decide)
  refine ⟨⟨7, h1⟩, ⟨7, by unfold Heap.HoldsView; decide, ?_⟩, ⟨0, by unfold Heap.HoldsView; decide, ?_⟩, ?_⟩
  · rintro (h | ⟨h, _⟩)
    · exact absurd h (by decide)
    · exact absurd h (by decide)
  · rintro (h | ⟨h, _⟩)
    · exact absurd h (by decide)
    · exact absurd h (by decide)
  · intro h
    exact h1.2 (h renderScript 2 0 received 7 (4, 3) h1.1)

/-- A view of the depth channel survives the render and the end of the frame buffer's and the property's own names. -/
example : ((Heap.init.run [.create (List.replicate 7 (0, 0)) (4, 3), .enable 0 0 true, .property 0 0, .asarray 1]).run
    [.drop 1, .drop 0, .create [(2, 2)] (0, 0)]).HoldsView 2 0 0 7 (4, 3) := by unfold Heap.HoldsView; decide

example : ((Heap.init.run [.create (List.replicate 7 (0, 0)) (4, 3), .enable 0 0 true, .property 0 0, .asarray 1]).run
    [.drop 1, .drop 0, .create [(2, 2)] (0, 0)]).live 7 = true := by decide

/-- When the view is dropped as well, the storage is given back. -/
example : ((Heap.init.run [.create (List.replicate 7 (0, 0)) (4, 3), .enable 0 0 true, .property 0 0, .asarray 1]).run
    [.drop 1, .drop 0, .drop 2]).live 7 = false := by decide

/-- A render leaves a view of the depth channel alone. -/
example : ∀ j, (Op.render 0).Touches j 0 → (Heap.init.run disableScript).objs[j]? ≠ some ⟨0, .whole, true⟩ := by
  rintro j ⟨_, h⟩
  exact absurd h (by decide)

end Huira.PyViews
