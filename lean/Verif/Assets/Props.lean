import Verif.Assets.Model
/-! # Property C08: no primitive outlives its geometry -/
set_option linter.unusedSimpArgs false
namespace Huira.Assets

/-- Invariant: identities are fresh, geometries are listed once, every primitive's geometry is registered,
every instance wraps a registered primitive. -/
structure Inv (s : Scene) : Prop where
  nodupG : s.geoms.Nodup
  nodupP : (s.prims.map (·.1)).Nodup
  freshG : ∀ g ∈ s.geoms, g < s.next
  freshP : ∀ e ∈ s.prims, e.1 < s.next
  geom : ∀ e ∈ s.prims, e.2 ∈ s.geoms
  inst : ∀ p ∈ s.insts, p ∈ s.prims.map (·.1)

theorem inv_init : Inv init := by constructor <;> simp [init]

theorem deletePrimitive_spec (s : Scene) (hi : Inv s) (p : Nat) :
    Inv (deletePrimitive s p).1 ∧ (deletePrimitive s p).1.geoms = s.geoms ∧
      (deletePrimitive s p).1.insts = s.insts ∧
      ((deletePrimitive s p).2 = .done ∧ (deletePrimitive s p).1.prims = s.prims.filter (fun e => e.1 ≠ p) ∨
       (deletePrimitive s p).2 = .throw ∧ (deletePrimitive s p).1 = s) := by
  unfold deletePrimitive
  split
  · split
    · exact ⟨hi, rfl, rfl, Or.inr ⟨rfl, rfl⟩⟩
    · next hin =>
      refine ⟨?_, rfl, rfl, Or.inl ⟨rfl, rfl⟩⟩
      constructor
      · exact hi.nodupG
      · exact hi.nodupP.sublist (List.Sublist.map _ (List.filter_sublist))
      · exact hi.freshG
      · intro e he; exact hi.freshP e (List.mem_filter.1 he).1
      · intro e he; exact hi.geom e (List.mem_filter.1 he).1
      · intro q hq
        obtain ⟨e, he, rfl⟩ := List.mem_map.1 (hi.inst q hq)
        refine List.mem_map.2 ⟨e, List.mem_filter.2 ⟨he, ?_⟩, rfl⟩
        simp
        intro e2; subst e2; exact hin hq
  · exact ⟨hi, rfl, rfl, Or.inr ⟨rfl, rfl⟩⟩

/-- The purge removes a prefix of the listed primitives; all of them if it does not throw. -/
theorem purge_spec : ∀ (ps : List Nat) (s : Scene), Inv s →
    Inv (purge s ps).1 ∧ (purge s ps).1.geoms = s.geoms ∧ (purge s ps).1.insts = s.insts ∧
    (∀ e, e ∈ (purge s ps).1.prims → e ∈ s.prims) ∧
    (∀ e, e ∈ s.prims → e.1 ∉ ps → e ∈ (purge s ps).1.prims) ∧
    ((purge s ps).2 = .done → ∀ e ∈ (purge s ps).1.prims, e.1 ∉ ps) ∧
    ((purge s ps).2 = .done ∨ (purge s ps).2 = .throw)
  | [], s, hi => by simp [purge, hi]
  | p :: ps, s, hi => by
    have hd := deletePrimitive_spec s hi p
    match h : deletePrimitive s p with
    | (s', .throw) =>
      rw [h] at hd
      have e : purge s (p :: ps) = (s', .throw) := by simp [purge, h]
      rw [e]
      obtain ⟨h1, h2, h3, h4 | h4⟩ := hd
      · simp at h4
      · have : s' = s := h4.2
        subst this
        exact ⟨h1, rfl, rfl, fun e he => he, fun e he _ => he, by simp, Or.inr rfl⟩
    | (s', .done) =>
      rw [h] at hd
      have e : purge s (p :: ps) = purge s' ps := by simp [purge, h]
      rw [e]
      obtain ⟨h1, h2, h3, h4 | h4⟩ := hd
      · have hp : s'.prims = s.prims.filter (fun e => e.1 ≠ p) := h4.2
        obtain ⟨i1, i2, i3, i4, i5, i6, i7⟩ := purge_spec ps s' h1
        refine ⟨i1, i2.trans h2, i3.trans h3, ?_, ?_, ?_, i7⟩
        · intro e he
          have := i4 e he
          rw [hp] at this
          exact (List.mem_filter.1 this).1
        · intro e he hne
          simp at hne
          apply i5 e _ hne.2
          rw [hp]
          exact List.mem_filter.2 ⟨he, by simp [hne.1]⟩
        · intro hdone e he
          have h5 := i6 hdone e he
          have := i4 e he
          rw [hp] at this
          have := (List.mem_filter.1 this).2
          simp at this
          simp [this, h5]
      · simp at h4
    | (s', .created n) =>
      rw [h] at hd
      obtain ⟨_, _, _, h4 | h4⟩ := hd <;> simp at h4

theorem inv_step (s : Scene) (hi : Inv s) (op : Op) : Inv (step s op).1 := by
  cases op with
  | addGeometry =>
    simp only [step]
    constructor
    · simp only [List.nodup_append]
      refine ⟨hi.nodupG, by simp, ?_⟩
      intro a ha b hb; simp at hb; subst hb
      have := hi.freshG a ha; omega
    · exact hi.nodupP
    · intro g hg; simp at hg; rcases hg with h | h
      · have := hi.freshG g h; simp; omega
      · subst h; simp
    · intro e he; have := hi.freshP e he; simp; omega
    · intro e he; simp [hi.geom e he]
    · exact hi.inst
  | addPrimitive g =>
    simp only [step]
    split
    · next hg =>
      constructor
      · exact hi.nodupG
      · rw [List.map_append, List.nodup_append]
        refine ⟨hi.nodupP, by simp, ?_⟩
        intro a ha b hb
        simp at hb; subst hb
        obtain ⟨e, he, rfl⟩ := List.mem_map.1 ha
        have := hi.freshP e he; omega
      · intro x hx; have := hi.freshG x hx; simp; omega
      · intro e he; simp at he; rcases he with h | h
        · have := hi.freshP e h; simp; omega
        · subst h; simp
      · intro e he; simp at he; rcases he with h | h
        · exact hi.geom e h
        · subst h; exact hg
      · intro p hp; have := hi.inst p hp; rw [List.map_append]; exact List.mem_append_left _ this
    · exact hi
  | instantiate p =>
    simp only [step]
    split
    · next hp =>
      exact ⟨hi.nodupG, hi.nodupP, hi.freshG, hi.freshP, hi.geom, by
        intro q hq; simp at hq; rcases hq with h | h
        · exact hi.inst q h
        · subst h; exact hp⟩
    · exact hi
  | deletePrimitive p => exact (deletePrimitive_spec s hi p).1
  | deleteGeometry g =>
    simp only [step]
    split
    · have hp := purge_spec ((s.prims.filter (fun e => e.2 = g)).map (·.1)) s hi
      obtain ⟨i1, i2, i3, i4, i5, i6, i7⟩ := hp
      split
      · next e => rw [e] at i1; exact i1
      · next s' o hne e =>
        rw [e] at i1 i2 i3 i4 i5 i6 i7
        have ho : o = .done := i7.resolve_right (fun h => hne h)
        subst ho
        have hnog : ∀ e ∈ s'.prims, e.2 ≠ g := by
          intro e he heq
          refine i6 rfl e he ?_
          exact List.mem_map.2 ⟨e, List.mem_filter.2 ⟨i4 e he, by simp [heq]⟩, rfl⟩
        constructor
        · exact i1.nodupG.erase g
        · exact i1.nodupP
        · intro x hx; exact i1.freshG x (List.mem_of_mem_erase hx)
        · exact i1.freshP
        · intro e he
          exact (List.mem_erase_of_ne (hnog e he)).2 (i1.geom e he)
        · exact i1.inst
    · exact hi

theorem inv_run : ∀ (ops : List Op) (s : Scene), Inv s → Inv (run s ops)
  | [], _, h => h
  | op :: ops, s, h => inv_run ops _ (inv_step s h op)

/-- C08 (a): after any history, every remaining primitive's geometry is still registered and every instance
wraps a primitive that is still registered. -/
theorem C08_no_dangling (ops : List Op) :
    (∀ e ∈ (run init ops).prims, e.2 ∈ (run init ops).geoms) ∧
    (∀ p ∈ (run init ops).insts, p ∈ (run init ops).prims.map (·.1)) :=
  ⟨(inv_run ops init inv_init).geom, (inv_run ops init inv_init).inst⟩

/-- C08 (b): a successful `delete_geometry g` removes `g`, removes exactly the primitives using `g` and keeps
every other geometry and primitive. -/
theorem C08_delete_geometry (ops : List Op) (g : Nat) :
    let s := run init ops
    let r := step s (.deleteGeometry g)
    r.2 = .done →
      g ∉ r.1.geoms ∧ (∀ h, h ≠ g → (h ∈ r.1.geoms ↔ h ∈ s.geoms)) ∧
      (∀ e, e ∈ r.1.prims ↔ e ∈ s.prims ∧ e.2 ≠ g) := by
  intro s r hd
  have hi : Inv s := inv_run ops init inv_init
  obtain ⟨i1, i2, i3, i4, i5, i6, i7⟩ := purge_spec ((s.prims.filter (fun e => e.2 = g)).map (·.1)) s hi
  simp only [r, step] at hd ⊢
  split
  · next hg =>
    split
    · next e => simp [hg, e] at hd
    · next s' o hne e =>
      rw [e] at i1 i2 i3 i4 i5 i6 i7
      have ho : o = .done := i7.resolve_right (fun h => hne h)
      subst ho
      simp only at i1 i2 i3 i4 i5 i6 i7
      refine ⟨?_, ?_, ?_⟩
      · rw [i2]; simp [hi.nodupG.mem_erase_iff]
      · intro h hne; rw [i2]; exact List.mem_erase_of_ne hne
      · intro e
        constructor
        · intro he
          refine ⟨i4 e he, fun heq => i6 trivial e he ?_⟩
          exact List.mem_map.2 ⟨e, List.mem_filter.2 ⟨i4 e he, by simp [heq]⟩, rfl⟩
        · rintro ⟨he, hne⟩
          apply i5 e he
          intro hm
          obtain ⟨e', he', heq⟩ := List.mem_map.1 hm
          have h2 := List.mem_filter.1 he'
          -- same primitive identity, hence the same entry
          have : e' = e := by
            have hnd := hi.nodupP
            exact nodup_map_inj hnd h2.1 he heq
          subst this
          simp at h2
          exact hne h2.2
  · next hg => simp [hg] at hd
where
  nodup_map_inj {l : List (Nat × Nat)} : (l.map (·.1)).Nodup → ∀ {a b : Nat × Nat}, a ∈ l → b ∈ l → a.1 = b.1 → a = b := by
    intro hnd a b ha hb hab
    induction l with
    | nil => simp at ha
    | cons x l ih =>
      simp only [List.map_cons, List.nodup_cons] at hnd
      rcases List.mem_cons.1 ha with rfl | ha'
      · rcases List.mem_cons.1 hb with rfl | hb'
        · rfl
        · exact absurd (List.mem_map.2 ⟨b, hb', hab.symm⟩) hnd.1
      · rcases List.mem_cons.1 hb with rfl | hb'
        · exact absurd (List.mem_map.2 ⟨a, ha', hab⟩) hnd.1
        · exact ih hnd.2 ha' hb'

/-- C08 (c), full: deleting a registered geometry succeeds. -/
def C08_delete_succeeds_full : Prop :=
  ∀ (ops : List Op) (g : Nat), g ∈ (run init ops).geoms → (step (run init ops) (.deleteGeometry g)).2 = .done

/-- Violated: a geometry with an instantiated primitive cannot be deleted, and worse, the failing call has
already deleted the geometry's other primitives. -/
theorem C08_delete_succeeds_violated : ¬ C08_delete_succeeds_full := by
  intro h
  have := h [.addGeometry, .addPrimitive 0, .addPrimitive 0, .instantiate 2] 0 (by decide)
  exact absurd this (by decide)

theorem C08_failed_delete_not_atomic :
    let s := run init [.addGeometry, .addPrimitive 0, .addPrimitive 0, .instantiate 2]
    (step s (.deleteGeometry 0)).2 = .throw ∧ s.prims = [(1, 0), (2, 0)] ∧
      (step s (.deleteGeometry 0)).1.prims = [(2, 0)] := by decide

/-- It succeeds when no primitive of the geometry is instantiated. -/
theorem C08_delete_succeeds_partial (ops : List Op) (g : Nat) (hg : g ∈ (run init ops).geoms)
    (hn : ∀ e ∈ (run init ops).prims, e.2 = g → e.1 ∉ (run init ops).insts) :
    (step (run init ops) (.deleteGeometry g)).2 = .done := by
  have hi : Inv (run init ops) := inv_run ops init inv_init
  generalize run init ops = s at *
  have key : ∀ (ps : List Nat) (s : Scene), (∀ p ∈ ps, p ∉ s.insts) → (∀ p ∈ ps, p ∈ s.prims.map (·.1)) →
      ps.Nodup → (purge s ps).2 = .done := by
    intro ps
    induction ps with
    | nil => intro s _ _ _; rfl
    | cons p ps ih =>
      intro s h1 h2 h3
      have hd : deletePrimitive s p = ({ s with prims := s.prims.filter (fun e => e.1 ≠ p) }, .done) := by
        unfold deletePrimitive
        rw [if_pos (h2 p (by simp)), if_neg (h1 p (by simp))]
      simp only [purge, hd]
      rw [List.nodup_cons] at h3
      apply ih
      · intro q hq; exact h1 q (List.mem_cons_of_mem _ hq)
      · intro q hq
        obtain ⟨e, he, rfl⟩ := List.mem_map.1 (h2 q (List.mem_cons_of_mem _ hq))
        refine List.mem_map.2 ⟨e, List.mem_filter.2 ⟨he, ?_⟩, rfl⟩
        simp; intro e2; rw [e2] at hq; exact h3.1 hq
      · exact h3.2
  have hk := key ((s.prims.filter (fun e => e.2 = g)).map (·.1)) s (by
      intro p hp
      obtain ⟨e, he, rfl⟩ := List.mem_map.1 hp
      have := List.mem_filter.1 he
      simp at this
      exact hn e this.1 this.2) (by
      intro p hp
      obtain ⟨e, he, rfl⟩ := List.mem_map.1 hp
      exact List.mem_map.2 ⟨e, (List.mem_filter.1 he).1, rfl⟩) (hi.nodupP.sublist (List.Sublist.map _ List.filter_sublist))
  simp only [step, hg, if_true]
  split
  · next e => rw [e] at hk; exact hk
  · rfl

/-- A non-trivial history meeting the hypotheses: two geometries, three primitives, the unrelated one
instantiated. -/
example : let s := run init [.addGeometry, .addGeometry, .addPrimitive 0, .addPrimitive 1, .addPrimitive 0, .instantiate 3]
    0 ∈ s.geoms ∧ (∀ e ∈ s.prims, e.2 = 0 → e.1 ∉ s.insts) ∧ s.insts ≠ [] ∧
    (step s (.deleteGeometry 0)).2 = .done := by decide

end Huira.Assets
