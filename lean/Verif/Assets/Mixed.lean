import Mathlib.Data.List.Nodup
/-!
# C151: geometries, primitives and instances of several scenes

`Scene::add_primitive`, `delete_primitive`, `delete_geometry` (`include/huira_impl/scene/scene.ipp` 161-166, 196-218, 279-301,
331-339), `FrameHandle::new_instance` (`include/huira_impl/handles/scene/frame_handle.ipp` 48-55) and the ownership flag of the
objects (`include/huira/scene/scene_object.hpp` 50-56, 86; `include/huira_impl/scene/name_registry.ipp` 37-50) in a process with
any number of scenes. A handle does not say which scene it comes from (`include/huira_impl/handles/handle.ipp`), and the calls
do not ask. As in `Assets/Model`, the pruning of the scene graph throws if and only if the primitive has an instance in the
graph of the scene called. Names and models are left out; scenes live throughout.
-/
set_option linter.unusedSimpArgs false
namespace Huira.Assets.Mixed

/-- One scene: `geometries_`, `primitives_` (with the geometry each holds), the primitives its instances point to. -/
structure Sc where
  geoms : List Nat := []
  prims : List (Nat × Nat) := []
  insts : List Nat := []

/-- All scenes; `scene_owned_` of geometries and of primitives; the next address (scene_object.hpp 86). -/
structure W where
  sc : Nat → Sc := fun _ => {}
  geomOwned : Nat → Bool := fun _ => false
  primOwned : Nat → Bool := fun _ => false
  next : Nat := 0

inductive Call where
  | addGeometry (s : Nat)
  | addPrimitive (s g : Nat)
  | instantiate (s p : Nat)
  | deletePrimitive (s p : Nat)
  | deleteGeometry (s g : Nat)

inductive Out where
  | created (n : Nat)
  | done
  | throw
deriving DecidableEq

/-- Change one scene. -/
def W.at (w : W) (s : Nat) (f : Sc → Sc) : W := { w with sc := fun t => if t = s then f (w.sc s) else w.sc t }

/-- `delete_primitive` (scene.ipp 331-339): the handle is dereferenced, the graph of this scene is searched for instances, then
`NameRegistry::remove` (name_registry.ipp 37-50) throws if this scene does not have the primitive. -/
def deletePrimitive (w : W) (s p : Nat) : W × Out :=
  if w.primOwned p = false then (w, .throw)
  else if p ∈ (w.sc s).insts then (w, .throw)
  else if p ∉ (w.sc s).prims.map (·.1) then (w, .throw)
  else ({ w.at s (fun c => { c with prims := c.prims.filter (fun e => e.1 ≠ p) }) with
          primOwned := fun q => if q = p then false else w.primOwned q }, .done)

/-- The purge of `delete_geometry` (scene.ipp 213-215) -/
def purge (s : Nat) : W → List Nat → W × Out
  | w, [] => (w, .done)
  | w, p :: ps =>
    if (deletePrimitive w s p).2 = .throw then ((deletePrimitive w s p).1, .throw) else purge s (deletePrimitive w s p).1 ps

/-- `delete_geometry` (scene.ipp 196-218) -/
def deleteGeometry (w : W) (s g : Nat) : W × Out :=
  if w.geomOwned g = false then (w, .throw)
  else
    let r := purge s w (((w.sc s).prims.filter (fun e => e.2 = g)).map (·.1))
    if r.2 = .throw then (r.1, .throw)
    else if g ∉ (r.1.sc s).geoms then (r.1, .throw)
    else ({ r.1.at s (fun c => { c with geoms := c.geoms.erase g }) with
            geomOwned := fun h => if h = g then false else r.1.geomOwned h }, .done)

/-- One call: scene.ipp 161-166 (`add_geometry`), 279-301 (`add_primitive`: only `valid()` of the handle is asked),
frame_handle.ipp 48-55 (`new_instance`), and the deletions. -/
def step (w : W) : Call → W × Out
  | .addGeometry s =>
    ({ w.at s (fun c => { c with geoms := c.geoms ++ [w.next] }) with
       geomOwned := fun h => if h = w.next then true else w.geomOwned h, next := w.next + 1 }, .created w.next)
  | .addPrimitive s g =>
    if w.geomOwned g then
      ({ w.at s (fun c => { c with prims := c.prims ++ [(w.next, g)] }) with
         primOwned := fun q => if q = w.next then true else w.primOwned q, next := w.next + 1 }, .created w.next)
    else (w, .throw)
  | .instantiate s p =>
    if w.primOwned p then (w.at s (fun c => { c with insts := c.insts ++ [p] }), .done) else (w, .throw)
  | .deletePrimitive s p => deletePrimitive w s p
  | .deleteGeometry s g => deleteGeometry w s g

/-- A history. -/
def run : W → List Call → W
  | w, [] => w
  | w, c :: cs => run (step w c).1 cs

/-! ## Specification -/

/-- What a view of any scene would meet exists: every instance points to a primitive that some scene has, and every primitive
has a geometry that some scene has. -/
def Sound (w : W) : Prop :=
  (∀ s, ∀ p ∈ (w.sc s).insts, ∃ t g, (p, g) ∈ (w.sc t).prims) ∧
  (∀ s p g, (p, g) ∈ (w.sc s).prims → ∃ t, g ∈ (w.sc t).geoms)

/-- **C151 in full.** -/
def C151_full : Prop := ∀ calls, Sound (run {} calls)

/-- Each scene is given only its own geometries and primitives to use. -/
def Own (w : W) : Call → Prop
  | .addPrimitive s g => w.geomOwned g = true → g ∈ (w.sc s).geoms
  | .instantiate s p => w.primOwned p = true → p ∈ (w.sc s).prims.map (·.1)
  | _ => True

def OwnRun : W → List Call → Prop
  | _, [] => True
  | w, c :: cs => Own w c ∧ OwnRun (step w c).1 cs

/-! ## Proofs -/

/-- Invariant of histories in which scenes use only their own. -/
structure Inv (w : W) : Prop where
  insts : ∀ s, ∀ p ∈ (w.sc s).insts, p ∈ (w.sc s).prims.map (·.1)
  prims : ∀ s p g, (p, g) ∈ (w.sc s).prims → g ∈ (w.sc s).geoms
  geomOwned : ∀ s, ∀ g ∈ (w.sc s).geoms, w.geomOwned g = true ∧ g < w.next
  primOwned : ∀ s p g, (p, g) ∈ (w.sc s).prims → w.primOwned p = true ∧ p < w.next
  geomApart : ∀ s t g, g ∈ (w.sc s).geoms → g ∈ (w.sc t).geoms → s = t
  primApart : ∀ s t p g h, (p, g) ∈ (w.sc s).prims → (p, h) ∈ (w.sc t).prims → s = t
  nodup : ∀ s, (w.sc s).geoms.Nodup

theorem inv_init : Inv {} := by
  constructor <;> simp

theorem at_sc (w : W) (s t : Nat) (f : Sc → Sc) : (w.at s f).sc t = if t = s then f (w.sc s) else w.sc t := rfl

/-- After `deletePrimitive`. -/
theorem deletePrimitive_spec (w : W) (s p : Nat) :
    ((deletePrimitive w s p).2 = .throw ∧ (deletePrimitive w s p).1 = w) ∨
    ((deletePrimitive w s p).2 = .done ∧ p ∉ (w.sc s).insts ∧ p ∈ (w.sc s).prims.map (·.1) ∧
      (deletePrimitive w s p).1 = { w.at s (fun c => { c with prims := c.prims.filter (fun e => e.1 ≠ p) }) with
          primOwned := fun q => if q = p then false else w.primOwned q }) := by
  unfold deletePrimitive
  split
  · exact Or.inl ⟨rfl, rfl⟩
  · split
    · exact Or.inl ⟨rfl, rfl⟩
    · next h =>
      split
      · exact Or.inl ⟨rfl, rfl⟩
      · next h' => exact Or.inr ⟨rfl, h, by simpa using h', rfl⟩

theorem inv_deletePrimitive (w : W) (s p : Nat) (hi : Inv w) : Inv (deletePrimitive w s p).1 := by
  rcases deletePrimitive_spec w s p with ⟨_, e⟩ | ⟨_, hn, hp, e⟩
  · rw [e]; exact hi
  · rw [e]
    have sub : ∀ t q g, (q, g) ∈ ((w.at s (fun c => { c with prims := c.prims.filter (fun e => e.1 ≠ p) })).sc t).prims →
        (q, g) ∈ (w.sc t).prims ∧ (t = s → q ≠ p) := by
      intro t q g h
      rw [at_sc] at h
      split at h
      · next ht => subst ht; simp at h; exact ⟨h.1, fun _ => h.2⟩
      · next ht => exact ⟨h, fun x => absurd x ht⟩
    have geo : ∀ t, ((w.at s (fun c => { c with prims := c.prims.filter (fun e => e.1 ≠ p) })).sc t).geoms = (w.sc t).geoms := by
      intro t; rw [at_sc]; split
      · next ht => subst ht; rfl
      · rfl
    have ins : ∀ t, ((w.at s (fun c => { c with prims := c.prims.filter (fun e => e.1 ≠ p) })).sc t).insts = (w.sc t).insts := by
      intro t; rw [at_sc]; split
      · next ht => subst ht; rfl
      · rfl
    refine ⟨?_, ?_, ?_, ?_, ?_, ?_, ?_⟩
    · intro t q hq
      simp only [ins] at hq
      have := hi.insts t q hq
      simp only [at_sc]
      split
      · next ht =>
        subst ht
        obtain ⟨⟨q', g⟩, h1, rfl⟩ := List.mem_map.1 this
        refine List.mem_map.2 ⟨(q', g), ?_, rfl⟩
        simp only [List.mem_filter, decide_eq_true_eq]
        exact ⟨h1, fun e => hn (by rw [← e]; exact hq)⟩
      · exact this
    · intro t q g h; simp only [geo]; exact hi.prims t q g (sub t q g h).1
    · intro t g h; simp only [geo] at h; exact hi.geomOwned t g h
    · intro t q g h
      obtain ⟨h1, h2⟩ := sub t q g h
      have := hi.primOwned t q g h1
      refine ⟨?_, this.2⟩
      simp only
      rw [if_neg]
      · exact this.1
      · intro e
        obtain ⟨⟨p', g'⟩, h3, rfl⟩ := List.mem_map.1 hp
        simp only at e h2
        subst e
        exact h2 (hi.primApart t s q g g' h1 h3) rfl
    · intro t u g h1 h2; simp only [geo] at h1 h2; exact hi.geomApart t u g h1 h2
    · intro t u q g h h1 h2; exact hi.primApart t u q g h (sub t q g h1).1 (sub u q h h2).1
    · intro t; simp only [geo]; exact hi.nodup t

theorem inv_purge (s : Nat) : ∀ (ps : List Nat) (w : W), Inv w → Inv (purge s w ps).1
  | [], w, hi => hi
  | p :: ps, w, hi => by
    unfold purge
    split
    · exact inv_deletePrimitive w s p hi
    · exact inv_purge s ps _ (inv_deletePrimitive w s p hi)

/-- A purge that goes through leaves the scene without the primitives named, and takes none of the others. -/
theorem purge_spec (s : Nat) : ∀ (ps : List Nat) (w : W), (purge s w ps).2 ≠ .throw →
    ∀ t q g, (q, g) ∈ ((purge s w ps).1.sc t).prims ↔ (q, g) ∈ (w.sc t).prims ∧ (t = s → q ∉ ps)
  | [], w, _, t, q, g => by simp [purge]
  | p :: ps, w, h, t, q, g => by
    unfold purge at h ⊢
    split at h
    · exact absurd rfl h
    · next hne =>
      rw [if_neg hne, purge_spec s ps _ h t q g]
      rcases deletePrimitive_spec w s p with ⟨e, _⟩ | ⟨_, _, _, e⟩
      · exact absurd e hne
      · rw [e]
        simp only [at_sc]
        by_cases ht : t = s
        · subst ht
          simp [and_assoc]
        · simp [ht]

theorem purge_geoms (s : Nat) : ∀ (ps : List Nat) (w : W) (t : Nat), ((purge s w ps).1.sc t).geoms = (w.sc t).geoms ∧
    ((purge s w ps).1.sc t).insts = (w.sc t).insts
  | [], _, _ => ⟨rfl, rfl⟩
  | p :: ps, w, t => by
    have one : ∀ t, ((deletePrimitive w s p).1.sc t).geoms = (w.sc t).geoms ∧ ((deletePrimitive w s p).1.sc t).insts = (w.sc t).insts := by
      intro t
      rcases deletePrimitive_spec w s p with ⟨_, e⟩ | ⟨_, _, _, e⟩
      · rw [e]; exact ⟨rfl, rfl⟩
      · rw [e]; simp only [at_sc]; split
        · next ht => subst ht; exact ⟨rfl, rfl⟩
        · exact ⟨rfl, rfl⟩
    unfold purge
    split
    · exact one t
    · rw [(purge_geoms s ps _ t).1, (purge_geoms s ps _ t).2]; exact one t

theorem inv_deleteGeometry (w : W) (s g : Nat) (hi : Inv w) : Inv (deleteGeometry w s g).1 := by
  unfold deleteGeometry
  split
  · exact hi
  · have hp := inv_purge s (((w.sc s).prims.filter (fun e => e.2 = g)).map (·.1)) w hi
    have hsp := purge_spec s (((w.sc s).prims.filter (fun e => e.2 = g)).map (·.1)) w
    simp only
    generalize purge s w (((w.sc s).prims.filter (fun e => e.2 = g)).map (·.1)) = r at hp hsp ⊢
    split
    · exact hp
    · next hne =>
      split
      · exact hp
      · next hg =>
        have hg : g ∈ (r.1.sc s).geoms := by simpa using hg
        -- no primitive of the scene uses the geometry any more
        have none_left : ∀ q h, (q, h) ∈ (r.1.sc s).prims → h ≠ g := by
          intro q h hm e
          subst e
          obtain ⟨h1, h2⟩ := (hsp hne s q h).1 hm
          refine h2 rfl (List.mem_map.2 ⟨(q, h), ?_, rfl⟩)
          simp [h1]
        have prm : ∀ t, ((r.1.at s (fun c => { c with geoms := c.geoms.erase g })).sc t).prims = (r.1.sc t).prims := by
          intro t; rw [at_sc]; split
          · next ht => subst ht; rfl
          · rfl
        have ins : ∀ t, ((r.1.at s (fun c => { c with geoms := c.geoms.erase g })).sc t).insts = (r.1.sc t).insts := by
          intro t; rw [at_sc]; split
          · next ht => subst ht; rfl
          · rfl
        have geo : ∀ t h, h ∈ ((r.1.at s (fun c => { c with geoms := c.geoms.erase g })).sc t).geoms ↔
            h ∈ (r.1.sc t).geoms ∧ (t = s → h ≠ g) := by
          intro t h; rw [at_sc]; split
          · next ht => subst ht; simp [(hp.nodup t).mem_erase_iff, and_comm]
          · next ht => simp [ht]
        refine ⟨?_, ?_, ?_, ?_, ?_, ?_, ?_⟩
        · intro t q hq
          simp only [ins, prm] at hq ⊢
          exact hp.insts t q hq
        · intro t q h hm
          simp only [prm] at hm
          refine (geo t h).2 ⟨hp.prims t q h hm, fun ht => ?_⟩
          subst ht
          exact none_left q h hm
        · intro t h hm
          obtain ⟨h1, h2⟩ := (geo t h).1 hm
          refine ⟨?_, (hp.geomOwned t h h1).2⟩
          simp only
          rw [if_neg]
          · exact (hp.geomOwned t h h1).1
          · intro e
            subst e
            exact h2 (hp.geomApart t s h h1 hg) rfl
        · intro t q h hm
          simp only [prm] at hm
          exact hp.primOwned t q h hm
        · intro t u h h1 h2
          exact hp.geomApart t u h ((geo t h).1 h1).1 ((geo u h).1 h2).1
        · intro t u q h h' h1 h2
          simp only [prm] at h1 h2
          exact hp.primApart t u q h h' h1 h2
        · intro t
          simp only [at_sc]
          split
          · exact (hp.nodup s).erase g
          · exact hp.nodup t

theorem inv_step (w : W) (c : Call) (hi : Inv w) (hc : Own w c) : Inv (step w c).1 := by
  cases c with
  | addGeometry s =>
    simp only [step]
    have geo : ∀ t h, h ∈ ((w.at s (fun c => { c with geoms := c.geoms ++ [w.next] })).sc t).geoms ↔
        h ∈ (w.sc t).geoms ∨ (t = s ∧ h = w.next) := by
      intro t h; rw [at_sc]; split
      · next ht => subst ht; simp
      · next ht => simp [ht]
    have prm : ∀ t, ((w.at s (fun c => { c with geoms := c.geoms ++ [w.next] })).sc t).prims = (w.sc t).prims := by
      intro t; rw [at_sc]; split
      · next ht => subst ht; rfl
      · rfl
    have ins : ∀ t, ((w.at s (fun c => { c with geoms := c.geoms ++ [w.next] })).sc t).insts = (w.sc t).insts := by
      intro t; rw [at_sc]; split
      · next ht => subst ht; rfl
      · rfl
    refine ⟨?_, ?_, ?_, ?_, ?_, ?_, ?_⟩
    · intro t q hq; simp only [ins, prm] at hq ⊢; exact hi.insts t q hq
    · intro t q h hm; simp only [prm] at hm; exact (geo t h).2 (Or.inl (hi.prims t q h hm))
    · intro t h hm
      rcases (geo t h).1 hm with h1 | ⟨_, h1⟩
      · have := hi.geomOwned t h h1
        exact ⟨by simp only; split <;> simp [this.1], Nat.lt_succ_of_lt this.2⟩
      · subst h1; exact ⟨by simp, Nat.lt_succ_self _⟩
    · intro t q h hm
      simp only [prm] at hm
      have := hi.primOwned t q h hm
      exact ⟨this.1, Nat.lt_succ_of_lt this.2⟩
    · intro t u h h1 h2
      rcases (geo t h).1 h1 with h1 | ⟨e1, h1⟩ <;> rcases (geo u h).1 h2 with h2 | ⟨e2, h2⟩
      · exact hi.geomApart t u h h1 h2
      · exact absurd h2 (Nat.ne_of_lt (hi.geomOwned t h h1).2)
      · exact absurd h1 (Nat.ne_of_lt (hi.geomOwned u h h2).2)
      · rw [e1, e2]
    · intro t u q h h' h1 h2
      simp only [prm] at h1 h2
      exact hi.primApart t u q h h' h1 h2
    · intro t
      simp only [at_sc]
      split
      · next ht =>
        refine List.nodup_append.2 ⟨hi.nodup s, by simp, ?_⟩
        intro a ha b hb e
        simp only [List.mem_singleton] at hb
        subst e; subst hb
        exact Nat.lt_irrefl _ (hi.geomOwned s _ ha).2
      · exact hi.nodup t
  | addPrimitive s g =>
    simp only [step]
    split
    swap
    · exact hi
    next ho =>
    have hg := hc ho
    have prm : ∀ t q h, (q, h) ∈ ((w.at s (fun c => { c with prims := c.prims ++ [(w.next, g)] })).sc t).prims ↔
        (q, h) ∈ (w.sc t).prims ∨ (t = s ∧ q = w.next ∧ h = g) := by
      intro t q h; rw [at_sc]; split
      · next ht => subst ht; simp
      · next ht => simp [ht]
    have geo : ∀ t, ((w.at s (fun c => { c with prims := c.prims ++ [(w.next, g)] })).sc t).geoms = (w.sc t).geoms := by
      intro t; rw [at_sc]; split
      · next ht => subst ht; rfl
      · rfl
    have ins : ∀ t, ((w.at s (fun c => { c with prims := c.prims ++ [(w.next, g)] })).sc t).insts = (w.sc t).insts := by
      intro t; rw [at_sc]; split
      · next ht => subst ht; rfl
      · rfl
    refine ⟨?_, ?_, ?_, ?_, ?_, ?_, ?_⟩
    · intro t q hq
      simp only [ins] at hq
      obtain ⟨⟨q', h⟩, h1, rfl⟩ := List.mem_map.1 (hi.insts t q hq)
      exact List.mem_map.2 ⟨(q', h), (prm t q' h).2 (Or.inl h1), rfl⟩
    · intro t q h hm
      simp only [geo]
      rcases (prm t q h).1 hm with h1 | ⟨rfl, _, rfl⟩
      · exact hi.prims t q h h1
      · exact hg
    · intro t h hm
      simp only [geo] at hm
      have := hi.geomOwned t h hm
      exact ⟨this.1, Nat.lt_succ_of_lt this.2⟩
    · intro t q h hm
      rcases (prm t q h).1 hm with h1 | ⟨_, rfl, _⟩
      · have := hi.primOwned t q h h1
        exact ⟨by simp only; split <;> simp [this.1], Nat.lt_succ_of_lt this.2⟩
      · exact ⟨by simp, Nat.lt_succ_self _⟩
    · intro t u h h1 h2; simp only [geo] at h1 h2; exact hi.geomApart t u h h1 h2
    · intro t u q h h' h1 h2
      rcases (prm t q h).1 h1 with h1 | ⟨e1, h1, _⟩ <;> rcases (prm u q h').1 h2 with h2 | ⟨e2, h2, _⟩
      · exact hi.primApart t u q h h' h1 h2
      · exact absurd h2 (Nat.ne_of_lt (hi.primOwned t q h h1).2)
      · exact absurd h1 (Nat.ne_of_lt (hi.primOwned u q h' h2).2)
      · rw [e1, e2]
    · intro t; simp only [geo]; exact hi.nodup t
  | instantiate s p =>
    simp only [step]
    split
    swap
    · exact hi
    next ho =>
    have hp := hc ho
    have prm : ∀ t, ((w.at s (fun c => { c with insts := c.insts ++ [p] })).sc t).prims = (w.sc t).prims := by
      intro t; rw [at_sc]; split
      · next ht => subst ht; rfl
      · rfl
    have geo : ∀ t, ((w.at s (fun c => { c with insts := c.insts ++ [p] })).sc t).geoms = (w.sc t).geoms := by
      intro t; rw [at_sc]; split
      · next ht => subst ht; rfl
      · rfl
    refine ⟨?_, ?_, ?_, ?_, ?_, ?_, ?_⟩
    · intro t q hq
      simp only [prm]
      rw [at_sc] at hq
      split at hq
      · next ht =>
        subst ht
        rcases List.mem_append.1 hq with h | h
        · exact hi.insts t q h
        · simp only [List.mem_singleton] at h; rw [h]; exact hp
      · exact hi.insts t q hq
    · intro t q h hm; simp only [prm, geo] at hm ⊢; exact hi.prims t q h hm
    · intro t h hm; simp only [geo] at hm; exact hi.geomOwned t h hm
    · intro t q h hm; simp only [prm] at hm; exact hi.primOwned t q h hm
    · intro t u h h1 h2; simp only [geo] at h1 h2; exact hi.geomApart t u h h1 h2
    · intro t u q h h' h1 h2; simp only [prm] at h1 h2; exact hi.primApart t u q h h' h1 h2
    · intro t; simp only [geo]; exact hi.nodup t
  | deletePrimitive s p => exact inv_deletePrimitive w s p hi
  | deleteGeometry s g => exact inv_deleteGeometry w s g hi

theorem inv_run : ∀ (calls : List Call) (w : W), Inv w → OwnRun w calls → Inv (run w calls)
  | [], _, hi, _ => hi
  | c :: cs, w, hi, hc => inv_run cs _ (inv_step w c hi hc.1) hc.2

/-- **C151 (partial).** If every scene is given only its own geometries and primitives, nothing dangles: each instance points to a
primitive of its own scene, and each primitive holds a geometry of its own scene, whatever is deleted. -/
theorem C151_partial (calls : List Call) (hc : OwnRun {} calls) :
    Sound (run {} calls) ∧
    (∀ s, ∀ p ∈ ((run {} calls).sc s).insts, ∃ g, (p, g) ∈ ((run {} calls).sc s).prims) ∧
    (∀ s p g, (p, g) ∈ ((run {} calls).sc s).prims → g ∈ ((run {} calls).sc s).geoms) := by
  have hi := inv_run calls {} inv_init hc
  have h1 : ∀ s, ∀ p ∈ ((run {} calls).sc s).insts, ∃ g, (p, g) ∈ ((run {} calls).sc s).prims := by
    intro s p hp
    obtain ⟨⟨q, g⟩, h, rfl⟩ := List.mem_map.1 (hi.insts s p hp)
    exact ⟨g, h⟩
  refine ⟨⟨?_, ?_⟩, h1, hi.prims⟩
  · intro s p hp; exact ⟨s, h1 s p hp⟩
  · intro s p g h; exact ⟨s, hi.prims s p g h⟩

/-- **C151 (partial).** A deletion asked of one scene leaves the geometries, primitives and instances of all other scenes as they
are, in every state, careful or not. -/
theorem C151_others_partial (w : W) (s t n : Nat) (h : t ≠ s) :
    (step w (.deletePrimitive s n)).1.sc t = w.sc t ∧ (step w (.deleteGeometry s n)).1.sc t = w.sc t := by
  have one : ∀ (w : W) p, (deletePrimitive w s p).1.sc t = w.sc t := by
    intro w p
    rcases deletePrimitive_spec w s p with ⟨_, e⟩ | ⟨_, _, _, e⟩
    · rw [e]
    · rw [e]; simp [at_sc, h]
  have many : ∀ (ps : List Nat) (w : W), (purge s w ps).1.sc t = w.sc t := by
    intro ps
    induction ps with
    | nil => intro w; rfl
    | cons p ps ih =>
      intro w
      unfold purge
      split
      · exact one w p
      · rw [ih, one]
  refine ⟨one w n, ?_⟩
  simp only [step, deleteGeometry]
  split
  · rfl
  · split
    · exact many _ _
    · split
      · exact many _ _
      · simp only [at_sc, h, if_false]
        exact many _ _

/-- **C151: deleted is deleted.** In every state: after a deletion that succeeded, the handle is dead in every scene: nothing new
can be made from it, a second deletion throws, and both change nothing. -/
theorem C151_dead_handle (w : W) (s g t : Nat) :
    ((step w (.deleteGeometry s g)).2 = .done → ∀ c ∈ [Call.addPrimitive t g, .deleteGeometry t g],
      step (step w (.deleteGeometry s g)).1 c = ((step w (.deleteGeometry s g)).1, .throw)) ∧
    ((step w (.deletePrimitive s g)).2 = .done → ∀ c ∈ [Call.instantiate t g, .deletePrimitive t g],
      step (step w (.deletePrimitive s g)).1 c = ((step w (.deletePrimitive s g)).1, .throw)) := by
  constructor
  · intro h
    have ho : (step w (.deleteGeometry s g)).1.geomOwned g = false := by
      simp only [step, deleteGeometry] at h ⊢
      split at h
      · cases h
      · next h1 =>
        rw [if_neg h1]
        split at h
        · cases h
        · next h2 =>
          rw [if_neg h2]
          split at h
          · cases h
          · next h3 => rw [if_neg h3]; simp
    intro c hc
    simp only [List.mem_cons, List.not_mem_nil, or_false] at hc
    rcases hc with rfl | rfl
    · generalize (step w (.deleteGeometry s g)).1 = w' at ho
      simp [step, ho]
    · generalize (step w (.deleteGeometry s g)).1 = w' at ho
      simp [step, deleteGeometry, ho]
  · intro h
    have ho : (step w (.deletePrimitive s g)).1.primOwned g = false := by
      rcases deletePrimitive_spec w s g with ⟨e, _⟩ | ⟨_, _, _, e⟩
      · simp only [step] at h
        rw [e] at h
        cases h
      · simp only [step, e]
        simp
    intro c hc
    simp only [List.mem_cons, List.not_mem_nil, or_false] at hc
    rcases hc with rfl | rfl
    · generalize (step w (.deletePrimitive s g)).1 = w' at ho
      simp [step, ho]
    · generalize (step w (.deletePrimitive s g)).1 = w' at ho
      simp [step, deletePrimitive, ho]

/-- **C151 violated, instances.** Scene 1 shows a primitive of scene 0; scene 0 deletes it without noticing, and the instance in
scene 1 points to an object that does not exist any more. -/
theorem C151_violated_instance :
    let w := run {} [.addGeometry 0, .addPrimitive 0 0, .instantiate 1 1, .deletePrimitive 0 1]
    1 ∈ (w.sc 1).insts ∧ ∀ t g, (1, g) ∉ (w.sc t).prims := by
  refine ⟨by decide, ?_⟩
  intro t g
  simp only [run, step, deletePrimitive, W.at]
  by_cases h0 : t = 0 <;> by_cases h1 : t = 1 <;> simp [h0, h1]

/-- **C151 violated, geometries.** Scene 1 has a primitive with a geometry of scene 0; asked to delete that geometry, scene 1
deletes its primitive and throws; asked of scene 0, the primitive stays with a geometry that is in no scene. -/
theorem C151_violated_geometry :
    let w := run {} [.addGeometry 0, .addPrimitive 1 0]
    ((step w (.deleteGeometry 1 0)).2 = .throw ∧ ((step w (.deleteGeometry 1 0)).1.sc 1).prims = []) ∧
    ((step w (.deleteGeometry 0 0)).2 = .done ∧ (1, 0) ∈ ((step w (.deleteGeometry 0 0)).1.sc 1).prims ∧
      ∀ t, ((step w (.deleteGeometry 0 0)).1.sc t).geoms = []) := by
  refine ⟨⟨by decide, by decide⟩, by decide, by decide, ?_⟩
  intro t
  by_cases h0 : t = 0 <;> by_cases h1 : t = 1 <;>
    simp [run, step, deleteGeometry, purge, W.at, h0, h1]

theorem C151_violated : ¬ C151_full := by
  intro h
  obtain ⟨h1, h2⟩ := C151_violated_instance
  obtain ⟨t, g, h3⟩ := (h _).1 1 1 h1
  exact h2 t g h3

/-- Non-vacuity: two scenes, each with its own objects, and deletions that go through and that do not. -/
example : OwnRun {} [.addGeometry 0, .addPrimitive 0 0, .addGeometry 1, .addPrimitive 1 2, .instantiate 1 3, .deleteGeometry 0 0,
    .deleteGeometry 1 2, .deletePrimitive 0 3] := by
  simp [OwnRun, Own, step, deleteGeometry, deletePrimitive, purge, W.at]

end Huira.Assets.Mixed
