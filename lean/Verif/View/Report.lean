import Verif.View.CollectProps
set_option linter.unusedSimpArgs false
/-!
# What a view reports (C147) and batches of rays (C148)

Models the check for unlinked objects in the constructor of `SceneView` (`include/huira_impl/scene/scene_view.ipp` 77-114) and the
batch versions of `intersect` and `resolve_hit` (340-375).
-/
namespace Huira.Collect

variable {T : Type}

/-! ### Unlinked objects -/

/-- An object named in a warning. -/
inductive Unlinked where
  | prim (p : Nat)
  | light (l : Nat)
  | unresolved (u : Nat)
deriving DecidableEq

/-- The inner loop over the instances of a view, with its `break` (scene_view.ipp 88-94, 102-108); `idOf` is `SceneObject::id`. -/
def found (idOf : Nat → Nat) (insts : List (Nat × List T)) (x : Nat) : Bool :=
  match insts with
  | [] => false
  | i :: rest => if idOf i.1 = idOf x then true else found idOf rest x

/-- The warnings of the constructor (scene_view.ipp 77-114) for the registered primitives, lights and unresolved objects of the scene, in
the order in which they are logged.  Primitives are looked up by address, lights and unresolved objects by their ids. -/
def warnings (lightId unresolvedId : Nat → Nat) (s : St T) (prims lights unresolved : List Nat) : List Unlinked :=
  prims.filterMap (fun p => if (s.lookup p).isNone then some (.prim p) else none) ++
  lights.filterMap (fun l => if found lightId s.lights l then none else some (.light l)) ++
  unresolved.filterMap (fun u => if found unresolvedId s.unresolved u then none else some (.unresolved u))

theorem found_iff (idOf : Nat → Nat) (hinj : Function.Injective idOf) (insts : List (Nat × List T)) (x : Nat) :
    found idOf insts x = true ↔ ∃ t, (x, t) ∈ insts := by
  induction insts with
  | nil => simp [found]
  | cons i rest ih =>
    unfold found
    split
    · rename_i h
      have hx := hinj h
      subst hx
      simp only [true_iff]
      exact ⟨i.2, by simp⟩
    · rename_i h
      rw [ih]
      constructor
      · rintro ⟨t, ht⟩; exact ⟨t, by simp [ht]⟩
      · rintro ⟨t, ht⟩
        rcases List.mem_cons.mp ht with h' | h'
        · exact absurd (by rw [← h']) h
        · exact ⟨t, h'⟩

theorem mem_flat (ps : List (Nat × List (List T))) (p : Nat) (t : List T) : (p, t) ∈ flat ps ↔ ∃ is, (p, is) ∈ ps ∧ t ∈ is := by
  simp only [flat, List.mem_flatMap, List.mem_map, Prod.mk.injEq, Prod.exists]
  constructor
  · rintro ⟨a, b, h, x, hx, rfl, rfl⟩; exact ⟨b, h, hx⟩
  · rintro ⟨is, h, ht⟩; exact ⟨p, is, h, t, ht, rfl, rfl⟩

theorem nonempty_addPrim (s : St T) (p : Nat) (tf : List T) (h : ∀ b ∈ s.primitives, b.2 ≠ []) :
    ∀ b ∈ (s.addPrim p tf).primitives, b.2 ≠ [] := by
  unfold St.addPrim
  cases s.lookup p with
  | some i =>
    intro b hb
    obtain ⟨j, hj⟩ := List.mem_iff_getElem?.mp hb
    simp only [List.getElem?_modify] at hj
    cases hs : s.primitives[j]? with
    | none => simp [hs] at hj
    | some c =>
      rw [hs] at hj
      simp only [Option.map_some, Option.some.injEq, Option.map_eq_map] at hj
      have hc := h c (List.mem_iff_getElem?.mpr ⟨j, hs⟩)
      split at hj
      · rw [← hj]; simp
      · rw [← hj]; exact hc
  | none =>
    intro b hb
    rcases List.mem_append.mp hb with hb | hb
    · exact h b hb
    · simp only [List.mem_singleton] at hb
      rw [hb]; simp

theorem nonempty_batches (mul : T → T → T) (root : Node T) : ∀ b ∈ (collect mul {} root).primitives, b.2 ≠ [] := by
  rw [collect_eq]
  generalize (nodePaths root).filterMap (place mul root) = items
  suffices H : ∀ s : St T, (∀ b ∈ s.primitives, b.2 ≠ []) → ∀ b ∈ (items.foldl St.add s).primitives, b.2 ≠ [] from H {} (by simp)
  induction items with
  | nil => intro s h; exact h
  | cons x xs ih =>
    intro s h
    refine ih _ ?_
    obtain ⟨i, tf⟩ := x
    cases i
    · exact nonempty_addPrim s _ tf h
    · exact h
    · exact h

/-- **C147.**  The warnings of a new view name exactly the registered objects that are nowhere in the scene graph, in the scene or in a
model at any depth; each is named as often as it is registered, primitives first, then lights, then unresolved objects. -/
theorem C147_warnings (mul : T → T → T) (lightId unresolvedId : Nat → Nat) (hl : Function.Injective lightId)
    (hu : Function.Injective unresolvedId) (root : Node T) (prims lights unresolved : List Nat)
    [DecidablePred fun p => ∀ q, primAt root q ≠ some p] [DecidablePred fun l => ∀ q, lightAt root q ≠ some l]
    [DecidablePred fun u => ∀ q, unresolvedAt root q ≠ some u] :
    warnings lightId unresolvedId (collect mul {} root) prims lights unresolved =
      (prims.filter fun p => ∀ q, primAt root q ≠ some p).map .prim ++
      (lights.filter fun l => ∀ q, lightAt root q ≠ some l).map .light ++
      (unresolved.filter fun u => ∀ q, unresolvedAt root q ≠ some u).map .unresolved := by
  have gen : ∀ (xs : List Nat) (c : Nat → Bool) (P : Nat → Prop) [DecidablePred P] (f : Nat → Unlinked), (∀ x, c x = true ↔ P x) →
      xs.filterMap (fun x => if c x then some (f x) else none) = (xs.filter fun x => P x).map f := by
    intro xs c P _ f h
    induction xs with
    | nil => rfl
    | cons x xs ih =>
      by_cases hx : P x
      · rw [List.filterMap_cons, if_pos ((h x).mpr hx), List.filter_cons_of_pos (by simpa using hx), List.map_cons, ih]
      · rw [List.filterMap_cons, if_neg (fun hc => hx ((h x).mp hc)), List.filter_cons_of_neg (by simpa using hx), ih]
  have gen' : ∀ (xs : List Nat) (c : Nat → Bool) (P : Nat → Prop) [DecidablePred P] (f : Nat → Unlinked), (∀ x, c x = false ↔ P x) →
      xs.filterMap (fun x => if c x then none else some (f x)) = (xs.filter fun x => P x).map f := by
    intro xs c P _ f h
    rw [← gen xs (fun x => !c x) P f (by intro x; rw [← h x]; simp)]
    congr 1
    funext x
    cases c x <;> simp
  obtain ⟨h1, h2, h3⟩ := collected mul root
  obtain ⟨hinv, -, -, -⟩ := foldl_add ((nodePaths root).filterMap (place mul root)) {} inv_init
  rw [← collect_eq] at hinv
  unfold warnings
  congr 1
  · congr 1
    · refine gen _ _ _ _ fun p => ?_
      rw [Option.isNone_iff_eq_none]
      constructor
      · intro h q hq
        have hm : (p, transformsAt mul root q) ∈ flat (collect mul {} root).primitives := by
          rw [h1.mem_iff, List.mem_filterMap]
          exact ⟨q, List.mem_filter.mpr ⟨mem_nodePaths.mpr (primAt_some root q (by rw [hq]; rfl)), by rw [hq]; rfl⟩, by rw [hq]; rfl⟩
        obtain ⟨is, hm, -⟩ := (mem_flat _ _ _).mp hm
        obtain ⟨i, hi⟩ := List.mem_iff_getElem?.mp hm
        have := (hinv p i).mpr ⟨_, hi, rfl⟩
        rw [h] at this
        exact absurd this (by simp)
      · intro h
        cases hlk : (collect mul {} root).lookup p with
        | none => rfl
        | some i =>
          exfalso
          obtain ⟨b, hb, hbp⟩ := (hinv p i).mp hlk
          have hne := nonempty_batches mul root b (List.mem_iff_getElem?.mpr ⟨i, hb⟩)
          obtain ⟨t, ht⟩ := List.exists_mem_of_ne_nil _ hne
          have hm : (p, t) ∈ flat (collect mul {} root).primitives :=
            (mem_flat _ _ _).mpr ⟨b.2, by rw [← hbp]; exact List.mem_iff_getElem?.mpr ⟨i, hb⟩, ht⟩
          rw [h1.mem_iff, List.mem_filterMap] at hm
          obtain ⟨q, -, hq⟩ := hm
          cases hpq : primAt root q with
          | none => simp [hpq] at hq
          | some p' =>
            simp [hpq] at hq
            exact h q (by rw [hpq, hq.1])
    · refine gen' _ _ _ _ fun l => ?_
      rw [← Bool.not_eq_true, found_iff lightId hl, not_exists]
      constructor
      · intro h q hq
        apply h (transformsAt mul root q)
        rw [h2, List.mem_filterMap]
        exact ⟨q, List.mem_filter.mpr ⟨mem_nodePaths.mpr (lightAt_some root q (by rw [hq]; rfl)), by rw [hq]; rfl⟩, by rw [hq]; rfl⟩
      · intro h t ht
        rw [h2, List.mem_filterMap] at ht
        obtain ⟨q, -, hq⟩ := ht
        cases hpq : lightAt root q with
        | none => simp [hpq] at hq
        | some p' =>
          simp [hpq] at hq
          exact h q (by rw [hpq, hq.1])
  · refine gen' _ _ _ _ fun l => ?_
    rw [← Bool.not_eq_true, found_iff unresolvedId hu, not_exists]
    constructor
    · intro h q hq
      apply h (transformsAt mul root q)
      rw [h3, List.mem_filterMap]
      exact ⟨q, List.mem_filter.mpr ⟨mem_nodePaths.mpr (unresolvedAt_some root q (by rw [hq]; rfl)), by rw [hq]; rfl⟩, by rw [hq]; rfl⟩
    · intro h t ht
      rw [h3, List.mem_filterMap] at ht
      obtain ⟨q, -, hq⟩ := ht
      cases hpq : unresolvedAt root q with
      | none => simp [hpq] at hq
      | some p' =>
        simp [hpq] at hq
        exact h q (by rw [hpq, hq.1])

/-- In the example scene the primitive 7 is only in models and the scene, 11 and the light 5 are nowhere. -/
example : warnings id id (collect (· * ·) {} exampleScene) [7, 11, 8] [4, 5] [9] = [.prim 11, .light 5] := by decide

/-! ### Batches -/

/-- One pass of a parallel loop over the slots of a vector: `order` is the order in which the indices happen to be processed, each writing
its own slot; `none` from `f` is undefined behaviour. -/
def runSlots {A : Type} (f : Nat → A → Option A) : List Nat → List A → Option (List A)
  | [], v => some v
  | i :: rest, v => do
    let x ← v[i]?
    let y ← f i x
    runSlots f rest (v.set i y)

/-- `intersect(rays, time)` (scene_view.ipp 340-352), `trace` being `intersect` of one ray and `blank` a new `HitRecord`. -/
def intersectBatch {R H : Type} (trace : R → H) (blank : H) (order : List Nat) (rays : List R) : Option (List H) :=
  runSlots (fun i _ => (rays[i]?).map trace) order (List.replicate rays.length blank)

/-- `resolve_hits(rays, hits)` (scene_view.ipp 360-375), `resolve` being `resolve_hit` and `blank` a new `Interaction`. -/
def resolveBatch {R H I : Type} (isHit : H → Bool) (resolve : R → H → I) (blank : I) (order : List Nat) (rays : List R) (hits : List H) :
    Option (List I) :=
  runSlots (fun i x => do
    let h ← hits[i]?
    if isHit h then do
      let r ← rays[i]?
      return resolve r h
    else return x) order (List.replicate hits.length blank)

theorem runSlots_spec {A : Type} (f : Nat → A → Option A) : ∀ (order : List Nat) (v : List A), order.Nodup → (∀ i ∈ order, i < v.length) →
    ((∀ i ∈ order, ∀ x, v[i]? = some x → (f i x).isSome) → ∃ w, runSlots f order v = some w ∧ w.length = v.length ∧
      ∀ i, w[i]? = if i ∈ order then (v[i]?).bind (f i) else v[i]?) ∧
    ((∃ i ∈ order, ∃ x, v[i]? = some x ∧ f i x = none) → runSlots f order v = none) := by
  intro order
  induction order with
  | nil =>
    intro v _ _
    exact ⟨fun _ => ⟨v, rfl, rfl, by simp⟩, by simp⟩
  | cons i rest ih =>
    intro v hn hlt
    have hi : i < v.length := hlt i (by simp)
    have hvi : v[i]? = some v[i] := List.getElem?_eq_getElem hi
    have hir : i ∉ rest := (List.nodup_cons.mp hn).1
    constructor
    · intro hsome
      obtain ⟨y, hy⟩ := Option.isSome_iff_exists.mp (hsome i (by simp) _ hvi)
      obtain ⟨w, h1, h2, h3⟩ := (ih (v.set i y) (List.nodup_cons.mp hn).2 (by intro j hj; simpa using hlt j (by simp [hj]))).1 (by
        intro j hj x hx
        have hji : i ≠ j := fun h => hir (h ▸ hj)
        rw [List.getElem?_set_ne hji] at hx
        exact hsome j (by simp [hj]) x hx)
      refine ⟨w, by simp only [runSlots, hvi, Option.bind_eq_bind, Option.bind_some, hy, h1], by simpa using h2, fun j => ?_⟩
      rw [h3]
      by_cases hj : j = i
      · subst hj
        simp only [hir, if_false, List.mem_cons, true_or, if_true, hvi, Option.bind_some, hy]
        rw [List.getElem?_set_self hi]
      · have hji : i ≠ j := fun h => hj h.symm
        simp only [List.getElem?_set_ne hji, List.mem_cons, hj, false_or]
    · rintro ⟨j, hj, x, hx, hf⟩
      rcases List.mem_cons.mp hj with rfl | hj
      · simp only [runSlots, hx, Option.bind_eq_bind, Option.bind_some, hf, Option.bind_none]
      · simp only [runSlots, hvi, Option.bind_eq_bind, Option.bind_some]
        cases hy : f i v[i] with
        | none => rfl
        | some y =>
          have hji : i ≠ j := fun h => hir (h ▸ hj)
          exact (ih (v.set i y) (List.nodup_cons.mp hn).2 (by intro k hk; simpa using hlt k (by simp [hk]))).2
            ⟨j, hj, x, by rw [List.getElem?_set_ne hji]; exact hx, hf⟩

/-- **C148.**  A batch of rays is intersected as its rays are one by one, whatever the schedule of the threads. -/
theorem C148_intersect {R H : Type} (trace : R → H) (blank : H) (rays : List R) (order : List Nat)
    (hp : order.Perm (List.range rays.length)) : intersectBatch trace blank order rays = some (rays.map trace) := by
  obtain ⟨w, h1, h2, h3⟩ := (runSlots_spec (fun i (_ : H) => (rays[i]?).map trace) order (List.replicate rays.length blank)
    (hp.nodup_iff.mpr List.nodup_range) (by intro i hi; simpa using hp.mem_iff.mp hi)).1 (by
      intro i hi x _
      have : i < rays.length := by simpa using hp.mem_iff.mp hi
      simp [List.getElem?_eq_getElem this])
  unfold intersectBatch
  rw [h1]
  congr 1
  apply List.ext_getElem?
  intro i
  rw [h3, List.getElem?_map]
  by_cases hi : i < rays.length
  · have hm : i ∈ order := hp.mem_iff.mpr (by simpa using hi)
    rw [if_pos hm, List.getElem?_replicate, if_pos hi, Option.bind_some]
  · have hm : i ∉ order := fun h => hi (by simpa using hp.mem_iff.mp h)
    rw [if_neg hm, List.getElem?_replicate, if_neg hi, List.getElem?_eq_none (by omega)]
    rfl

/-- **C148.**  A batch of hits is resolved as its hits are one by one with the rays of the same position, misses giving a blank interaction,
whatever the schedule; it is undefined exactly if some hit has no ray. -/
theorem C148_resolve {R H I : Type} (isHit : H → Bool) (resolve : R → H → I) (blank : I) (rays : List R) (hits : List H) (order : List Nat)
    (hp : order.Perm (List.range hits.length)) :
    (resolveBatch isHit resolve blank order rays hits = none ↔ ∃ (i : Nat) (h : H), hits[i]? = some h ∧ isHit h = true ∧ rays.length ≤ i) ∧
    ∀ out : List I, resolveBatch isHit resolve blank order rays hits = some out → out.length = hits.length ∧
      ∀ (i : Nat) (h : H), hits[i]? = some h → (isHit h = false → out[i]? = some blank) ∧
        ∀ r, rays[i]? = some r → isHit h = true → out[i]? = some (resolve r h) := by
  set f : Nat → I → Option I := fun i x => do
    let h ← hits[i]?
    if isHit h then do
      let r ← rays[i]?
      return resolve r h
    else return x with hf
  have hlt : ∀ i ∈ order, i < hits.length := by intro i hi; simpa using hp.mem_iff.mp hi
  have spec := runSlots_spec f order (List.replicate hits.length blank) (hp.nodup_iff.mpr List.nodup_range)
    (by intro i hi; simpa using hlt i hi)
  have hun : resolveBatch isHit resolve blank order rays hits = runSlots f order (List.replicate hits.length blank) := rfl
  have fnone : ∀ i x, i < hits.length → (f i x = none ↔ ∃ h, hits[i]? = some h ∧ isHit h = true ∧ rays.length ≤ i) := by
    intro i x hi
    simp only [hf, List.getElem?_eq_getElem hi, Option.bind_eq_bind, Option.bind_some]
    cases hh : isHit hits[i] with
    | false => simp [hh]
    | true =>
      simp only [if_true, Option.some.injEq, exists_eq_left', hh, true_and]
      by_cases hr : i < rays.length
      · simp [List.getElem?_eq_getElem hr, hr]
      · simp [List.getElem?_eq_none (Nat.le_of_not_lt hr), Nat.le_of_not_lt hr]
  by_cases hbad : ∃ i h, hits[i]? = some h ∧ isHit h = true ∧ rays.length ≤ i
  · have hnone : resolveBatch isHit resolve blank order rays hits = none := by
      obtain ⟨i, h, h1, h2, h3⟩ := hbad
      have hi : i < hits.length := (List.getElem?_eq_some_iff.mp h1).1
      rw [hun]
      exact spec.2 ⟨i, hp.mem_iff.mpr (by simpa using hi), blank, by rw [List.getElem?_replicate, if_pos hi],
        (fnone i blank hi).mpr ⟨h, h1, h2, h3⟩⟩
    exact ⟨⟨fun _ => hbad, fun _ => hnone⟩, fun out ho => by rw [hnone] at ho; exact absurd ho (by simp)⟩
  · obtain ⟨w, h1, h2, h3⟩ := spec.1 (by
      intro i hi x _
      rw [Option.isSome_iff_ne_none, Ne, fnone i x (hlt i hi)]
      rintro ⟨h, a, b, c⟩
      exact hbad ⟨i, h, a, b, c⟩)
    rw [hun, h1]
    refine ⟨⟨fun h => absurd h (by simp), fun h => absurd h hbad⟩, ?_⟩
    intro out ho
    simp only [Option.some.injEq] at ho
    subst ho
    refine ⟨by simpa using h2, ?_⟩
    intro i h hh
    have hi : i < hits.length := (List.getElem?_eq_some_iff.mp hh).1
    have hm : i ∈ order := hp.mem_iff.mpr (by simpa using hi)
    have hw := h3 i
    rw [if_pos hm, List.getElem?_replicate, if_pos hi, Option.bind_some] at hw
    simp only [hf, hh, Option.bind_eq_bind, Option.bind_some] at hw
    constructor
    · intro hb; rw [hw, hb]; rfl
    · intro r hr hb; rw [hw, hb, hr]; rfl

/-- Three rays traced last to first. -/
example : intersectBatch (· + 10) 0 [2, 0, 1] [1, 2, 3] = some [11, 12, 13] := by decide
/-- Two hits of which the second, without a ray, is a miss; and the undefined case. -/
example : resolveBatch (· != 0) (· + ·) 0 [1, 0] [5] [7, 0] = some [12, 0] ∧ resolveBatch (· != 0) (· + ·) 0 [1, 0] [5] [7, 1] = none := by
  decide

end Huira.Collect
