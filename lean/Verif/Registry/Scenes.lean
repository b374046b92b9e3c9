import Verif.Registry.Props
import Mathlib.Data.List.Induction
/-!
# C150: several scenes in one process

Every `Scene` has name registries of its own (`include/huira_impl/scene/scene.ipp`, `name_registry.ipp`), but the name and the
ownership flag are fields of the object (`include/huira/scene/scene_object.hpp` 86-88), the counter that numbers objects is
shared by the process (76-84), and a handle does not know which scene it comes from (`include/huira_impl/handles/handle.ipp`).
The calls are those of `Registry/Model` on one kind of object; scenes are numbered and live throughout.
-/
set_option linter.unusedSimpArgs false
namespace Huira.Registry.Scenes

/-- The registries of all scenes and the fields of the objects (name_registry.hpp; scene_object.hpp 76-88). -/
structure Worlds where
  objects : Nat → List Obj := fun _ => []
  map : Nat → List (Name × Obj) := fun _ => []
  nameOf : Obj → Name := fun _ => []
  owned : Obj → Bool := fun _ => false
  next : Obj := 0

/-- What a call on scene `s` sees. -/
def view (w : Worlds) (s : Nat) : World := ⟨⟨w.objects s, w.map s, w.nameOf, w.owned⟩, w.next⟩

/-- Write back what a call on scene `s` did. -/
def put (w : Worlds) (s : Nat) (v : World) : Worlds where
  objects := fun t => if t = s then v.reg.objects else w.objects t
  map := fun t => if t = s then v.reg.map else w.map t
  nameOf := v.reg.nameOf
  owned := v.reg.owned
  next := v.next

/-- A call on a scene: `add_*`, `set_name`, `delete_*`, `get_*` (scene.ipp 106-218, 277-339, ...) and `Handle::name`
(handle.hpp 38), for which the scene does not matter. -/
abbrev Call := Nat × Op

/-- One call. -/
def step (ty : Obj → Name) (w : Worlds) (c : Call) : Worlds × Out :=
  let r := Registry.step ty (view w c.1) c.2
  (put w c.1 r.1, r.2)

/-- A history, with what every call returned. -/
def run (ty : Obj → Name) (calls : List Call) : Worlds × List (Call × Out) :=
  calls.foldl (fun r c => ((step ty r.1 c).1, r.2 ++ [(c, (step ty r.1 c).2)])) ({}, [])

/-! ## Specification -/

/-- Scene `s` made `o`. -/
def MadeIn (tr : List (Call × Out)) (s : Nat) (o : Obj) : Prop := ∃ n, ((s, Op.create n), Out.handle o) ∈ tr
/-- Some scene deleted `o`. -/
def Gone (tr : List (Call × Out)) (o : Obj) : Prop := ∃ s, ((s, Op.delete o), Out.done) ∈ tr
/-- `o` is an object of scene `s`. -/
def LivesIn (tr : List (Call × Out)) (s : Nat) (o : Obj) : Prop := MadeIn tr s o ∧ ¬ Gone tr o

/-- The answer to the next call. -/
def answer (ty : Obj → Name) (calls : List Call) (c : Call) : Out := (step ty (run ty calls).1 c).2

/-- **C150 in full.** Whatever was done with any number of scenes: an object that lives in a scene has a name, and that scene
finds it under this name. -/
def C150_full : Prop := ∀ (ty : Obj → Name) (calls : List Call) (s : Nat) (o : Obj), LivesIn (run ty calls).2 s o →
  ∃ n, answer ty calls (s, .query o) = .named n ∧ answer ty calls (s, .lookup n) = .handle o

/-- Objects are renamed only by the scene that made them. -/
def Careful (tr : List (Call × Out)) : Prop :=
  ∀ pre post s h n, tr = pre ++ ((s, Op.rename h n), Out.done) :: post → MadeIn pre s h

/-! ## Proofs -/

theorem run_snoc (ty : Obj → Name) (calls : List Call) (c : Call) :
    run ty (calls ++ [c]) = ((step ty (run ty calls).1 c).1, (run ty calls).2 ++ [(c, (step ty (run ty calls).1 c).2)]) := by
  unfold run
  rw [List.foldl_append]
  rfl

/-- Scene `s` as if it were alone. -/
def solo (w : Worlds) (s : Nat) : World := ⟨⟨w.objects s, w.map s, w.nameOf, fun o => decide (o ∈ w.objects s)⟩, w.next⟩

structure WInv (w : Worlds) : Prop where
  each : ∀ s, Inv (solo w s)
  apart : ∀ s t o, o ∈ w.objects s → o ∈ w.objects t → s = t
  own : ∀ o, w.owned o = true ↔ ∃ s, o ∈ w.objects s

theorem winv_init : WInv {} where
  each := by intro s; constructor <;> simp [solo, find]
  apart := by intro s t o h; simp at h
  own := by simp

theorem WInv.below {w : Worlds} (hw : WInv w) {s o : Nat} (h : o ∈ w.objects s) : o < w.next := (hw.each s).fresh o h

/-- A rename that takes effect on an object of another scene. -/
def ForeignRename (w : Worlds) (c : Call) : Prop := ∃ h n, c.2 = .rename h n ∧ valid (view w c.1) h = true ∧ h ∉ w.objects c.1

/-- A call that renames no foreign object: what the registry of the scene does is what it does alone. -/
theorem step_solo (ty : Obj → Name) (w : Worlds) (hw : WInv w) (c : Call) (hc : ¬ ForeignRename w c) :
    (Registry.step ty (view w c.1) c.2).1.reg.objects = (Registry.step ty (solo w c.1) c.2).1.reg.objects ∧
    (Registry.step ty (view w c.1) c.2).1.reg.map = (Registry.step ty (solo w c.1) c.2).1.reg.map ∧
    (Registry.step ty (view w c.1) c.2).1.reg.nameOf = (Registry.step ty (solo w c.1) c.2).1.reg.nameOf ∧
    (Registry.step ty (view w c.1) c.2).1.next = (Registry.step ty (solo w c.1) c.2).1.next := by
  obtain ⟨s, op⟩ := c
  have hs : ∀ h, Registry.valid (solo w s) h = true ↔ h ∈ w.objects s := fun h => (hw.each s).valid h
  have hv : ∀ h, h ∈ w.objects s → Registry.valid (view w s) h = true := by
    intro h hm
    simp [Registry.valid, view, hw.below hm, (hw.own h).2 ⟨s, hm⟩]
  cases op with
  | create name =>
    simp only [Registry.step, add, view, solo]
    generalize (if name = [] then ty w.next ++ ['.'] ++ decimal w.next else name) = nm
    obtain ⟨n, hn⟩ := makeUnique_terminates (w.map s) nm
    simp [hn]
  | rename h name =>
    simp only [Registry.step]
    by_cases hm : h ∈ w.objects s
    · rw [if_pos (hv h hm), if_pos ((hs h).2 hm)]
      simp only [setName, view, solo]
      obtain ⟨n, hn⟩ := makeUnique_terminates (w.map s) name
      rw [hn]
      by_cases hx : n = w.nameOf h
      · simp [hx]
      · simp [hx]
    · have h1 : ¬ Registry.valid (view w s) h = true := fun hx => hc ⟨h, name, rfl, hx, hm⟩
      have h2 : ¬ Registry.valid (solo w s) h = true := fun hx => hm ((hs h).1 hx)
      rw [if_neg h1, if_neg h2]
      exact ⟨rfl, rfl, rfl, rfl⟩
  | delete h =>
    simp only [Registry.step]
    by_cases hm : h ∈ w.objects s
    · rw [if_pos (hv h hm), if_pos ((hs h).2 hm)]
      simp only [remove, view, solo, hm, if_true]
      exact ⟨trivial, trivial, trivial, trivial⟩
    · have h2 : ¬ Registry.valid (solo w s) h = true := fun hx => hm ((hs h).1 hx)
      rw [if_neg h2]
      simp only [remove, view, hm, if_false]
      split <;> exact ⟨rfl, rfl, rfl, rfl⟩
  | lookup name =>
    simp only [Registry.step]
    split <;> split <;> exact ⟨rfl, rfl, rfl, rfl⟩
  | query h =>
    simp only [Registry.step]
    split <;> split <;> exact ⟨rfl, rfl, rfl, rfl⟩

/-- What a call can change: the object it makes, renames or deletes. -/
theorem step_fields (ty : Obj → Name) (v : World) (op : Op) (o : Obj) :
    (o ≠ v.next → (∀ n, op ≠ .rename o n) → (Registry.step ty v op).1.reg.nameOf o = v.reg.nameOf o) ∧
    (o ≠ v.next → op ≠ .delete o → (Registry.step ty v op).1.reg.owned o = v.reg.owned o) := by
  cases op with
  | create name =>
    simp only [Registry.step, add]
    generalize (if name = [] then ty v.next ++ ['.'] ++ decimal v.next else name) = nm
    obtain ⟨n, hn⟩ := makeUnique_terminates v.reg.map nm
    simp only [hn, upd]
    exact ⟨fun h _ => if_neg h, fun h _ => if_neg h⟩
  | rename h name =>
    simp only [Registry.step]
    split
    · simp only [setName]
      obtain ⟨n, hn⟩ := makeUnique_terminates v.reg.map name
      simp only [hn]
      by_cases hx : n = v.reg.nameOf h
      · simp only [hx, if_true]
        exact ⟨fun _ _ => trivial, fun _ _ => trivial⟩
      · simp only [hx, if_false]
        refine ⟨fun _ h2 => ?_, fun _ _ => trivial⟩
        have : o ≠ h := fun e => h2 name (by rw [e])
        simp [upd, this]
    · exact ⟨fun _ _ => rfl, fun _ _ => rfl⟩
  | delete h =>
    simp only [Registry.step]
    split
    · simp only [remove]
      by_cases hm : h ∈ v.reg.objects
      · simp only [hm, if_true]
        refine ⟨fun _ _ => trivial, fun _ h2 => ?_⟩
        have : o ≠ h := fun e => h2 (by rw [e])
        simp [upd, this]
      · simp only [hm, if_false]
        exact ⟨fun _ _ => trivial, fun _ _ => trivial⟩
    · exact ⟨fun _ _ => rfl, fun _ _ => rfl⟩
  | lookup name => simp only [Registry.step]; split <;> exact ⟨fun _ _ => rfl, fun _ _ => rfl⟩
  | query h => simp only [Registry.step]; split <;> exact ⟨fun _ _ => rfl, fun _ _ => rfl⟩

/-- The objects of the scene called, and its ownership flags. -/
theorem step_objs (ty : Obj → Name) (w : Worlds) (hw : WInv w) (c : Call) (o : Obj) :
    (o ∈ (Registry.step ty (view w c.1) c.2).1.reg.objects ↔
      (o ∈ w.objects c.1 ∨ ∃ n, c.2 = .create n ∧ (step ty w c).2 = .handle o ∧ o = w.next) ∧
        ¬ (c.2 = .delete o ∧ (step ty w c).2 = .done)) ∧
    ((∃ n, c.2 = .create n) → (step ty w c).2 = .handle w.next ∧ (step ty w c).1.next = w.next + 1 ∧
      (step ty w c).1.owned w.next = true) ∧
    ((∀ n, c.2 ≠ .create n) → (step ty w c).1.next = w.next) ∧
    (c.2 = .delete o → (step ty w c).2 = .done → o ∈ w.objects c.1 ∧ (step ty w c).1.owned o = false) ∧
    (c.2 = .delete o → (step ty w c).2 ≠ .done → (step ty w c).1.owned o = w.owned o) := by
  obtain ⟨s, op⟩ := c
  cases op with
  | create name =>
    simp only [step, Registry.step, add, put, view]
    generalize (if name = [] then ty w.next ++ ['.'] ++ decimal w.next else name) = nm
    obtain ⟨n, hn⟩ := makeUnique_terminates (w.map s) nm
    simp only [hn]
    refine ⟨?_, fun _ => ⟨trivial, trivial, by simp [upd]⟩, fun h => absurd rfl (h name), by simp, by simp⟩
    simp only [List.mem_append, List.mem_singleton, reduceCtorEq, false_and, not_false_eq_true, and_true]
    constructor
    · rintro (h | rfl)
      · exact Or.inl h
      · exact Or.inr ⟨name, rfl, rfl, rfl⟩
    · rintro (h | ⟨_, _, _, h⟩)
      · exact Or.inl h
      · exact Or.inr h
  | rename h name =>
    simp only [step, Registry.step, put]
    split
    · split
      · exact ⟨by simp [view], by simp, by simp [view], by simp, by simp⟩
      · next r hr => exact ⟨by simp [setName_objects hr, view], by simp, by simp [view], by simp, by simp⟩
    · exact ⟨by simp [view], by simp, by simp [view], by simp, by simp⟩
  | delete h =>
    simp only [step, Registry.step, put]
    split
    · simp only [remove]
      by_cases hm : h ∈ (view w s).reg.objects
      · simp only [hm, if_true]
        have hnd : (w.objects s).Nodup := (hw.each s).nodup
        refine ⟨?_, by simp, by simp [view], ?_, by simp⟩
        · by_cases e : o = h
          · subst e; simp [view, hnd.mem_erase_iff]
          · simp [view, List.mem_erase_of_ne e, Ne.symm e]
        · intro e _
          simp only [Op.delete.injEq] at e
          subst e
          exact ⟨hm, by simp [upd]⟩
      · simp only [hm, if_false]
        exact ⟨by simp [view], by simp, by simp [view], by simp, by simp [view]⟩
    · exact ⟨by simp [view], by simp, by simp [view], by simp, by simp [view]⟩
  | lookup name =>
    simp only [step, Registry.step, put]
    split <;> exact ⟨by simp [view], by simp, by simp [view], by simp, by simp⟩
  | query h =>
    simp only [step, Registry.step, put]
    split <;> exact ⟨by simp [view], by simp, by simp [view], by simp, by simp⟩

theorem next_le (ty : Obj → Name) (w : Worlds) (c : Call) : w.next ≤ (step ty w c).1.next :=
  Registry.step_next ty (view w c.1) c.2

/-- The objects of every scene after a call. -/
theorem objects_step (ty : Obj → Name) (w : Worlds) (hw : WInv w) (c : Call) (t : Nat) (o : Obj) :
    o ∈ (step ty w c).1.objects t ↔
      (o ∈ w.objects t ∨ ∃ n, c = (t, .create n) ∧ (step ty w c).2 = .handle o ∧ o = w.next) ∧
        ¬ (c = (t, .delete o) ∧ (step ty w c).2 = .done) := by
  obtain ⟨s, op⟩ := c
  by_cases e : t = s
  · subst e
    have := (step_objs ty w hw (t, op) o).1
    rw [show (step ty w (t, op)).1.objects t = (Registry.step ty (view w t) op).1.reg.objects by simp [step, put]]
    rw [this]
    simp
  · rw [show (step ty w (s, op)).1.objects t = w.objects t by simp [step, put, e]]
    constructor
    · intro h
      exact ⟨Or.inl h, fun hx => e (congrArg Prod.fst hx.1).symm⟩
    · rintro ⟨h | ⟨n, h, _⟩, _⟩
      · exact h
      · exact absurd (by simpa using congrArg Prod.fst h.symm) e

theorem winv_step (ty : Obj → Name) (w : Worlds) (hw : WInv w) (c : Call) (hc : ¬ ForeignRename w c) : WInv (step ty w c).1 := by
  have hobj := objects_step ty w hw c
  have hacts := inv_step ty (solo w c.1) c.2 (hw.each c.1)
  obtain ⟨e1, e2, e3, e4⟩ := step_solo ty w hw c hc
  refine ⟨?_, ?_, ?_⟩
  · intro t
    by_cases e : t = c.1
    · subst e
      have : solo (step ty w c).1 c.1 = (Registry.step ty (solo w c.1) c.2).1 := by
        have hown : (fun o => decide (o ∈ (Registry.step ty (solo w c.1) c.2).1.reg.objects)) =
            (Registry.step ty (solo w c.1) c.2).1.reg.owned := by
          funext o
          rw [Bool.eq_iff_iff, decide_eq_true_iff]
          exact (hacts.own o).symm
        generalize (Registry.step ty (solo w c.1) c.2).1 = v at e1 e2 e3 e4 hown
        obtain ⟨⟨a, b, d, f⟩, g⟩ := v
        simp only [solo, step, put, if_true] at *
        rw [e1, e2, e3, e4, ← hown]
      rw [this]
      exact hacts
    · have ho : (step ty w c).1.objects t = w.objects t := by simp [step, put, e]
      have hm : (step ty w c).1.map t = w.map t := by simp [step, put, e]
      have hn : ∀ o ∈ w.objects t, (step ty w c).1.nameOf o = w.nameOf o := by
        intro o hot
        refine (step_fields ty (view w c.1) c.2 o).1 (Nat.ne_of_lt (hw.below hot)) ?_
        intro n hr
        refine hc ⟨o, n, hr, ?_, fun h => e (hw.apart _ _ o hot h)⟩
        simp [Registry.valid, view, hw.below hot, (hw.own o).2 ⟨t, hot⟩]
      have hi := hw.each t
      refine ⟨?_, ?_, ?_, ?_, ?_⟩
      · intro n o hf
        simp only [solo, hm] at hf
        obtain ⟨h1, h2⟩ := hi.back n o hf
        exact ⟨by simpa [solo, ho] using h1, by simp only [solo]; rw [hn o h1]; exact h2⟩
      · intro o hot
        simp only [solo, ho] at hot
        simp only [solo, hm, hn o hot]
        exact hi.fwd o hot
      · simpa [solo, ho] using hi.nodup
      · intro o hot
        simp only [solo, ho] at hot
        exact Nat.lt_of_lt_of_le (hi.fresh o hot) (next_le ty w c)
      · intro o
        simp [solo]
  · intro s t o hs ht
    rw [hobj] at hs ht
    rcases hs.1 with h1 | ⟨n, h1, _, h1'⟩ <;> rcases ht.1 with h2 | ⟨m, h2, _, h2'⟩
    · exact hw.apart s t o h1 h2
    · exact absurd h2' (Nat.ne_of_lt (hw.below h1))
    · exact absurd h1' (Nat.ne_of_lt (hw.below h2))
    · rw [h1] at h2; simpa using congrArg Prod.fst h2
  · intro o
    obtain ⟨_, hcreate, hnext, hdel, hdel'⟩ := step_objs ty w hw c o
    by_cases hnew : o = w.next
    · subst hnew
      have hnot : ∀ t, w.next ∉ w.objects t := fun t h => Nat.lt_irrefl _ (hw.below h)
      by_cases hcr : ∃ n, c.2 = .create n
      · refine ⟨fun _ => ⟨c.1, ?_⟩, fun _ => (hcreate hcr).2.2⟩
        rw [hobj]
        obtain ⟨n, hn⟩ := hcr
        refine ⟨Or.inr ⟨n, Prod.ext rfl hn, (hcreate ⟨n, hn⟩).1, rfl⟩, fun hx => ?_⟩
        rw [hx.1] at hn; simp at hn
      · have hall : ∀ t, w.next ∉ (step ty w c).1.objects t := by
          intro t h
          rw [hobj] at h
          rcases h.1 with h | ⟨n, h, _⟩
          · exact hnot t h
          · exact hcr ⟨n, by rw [h]⟩
        have hno : w.owned w.next = false := by
          rw [Bool.eq_false_iff]; intro h
          obtain ⟨s, hs⟩ := (hw.own _).1 h
          exact hnot s hs
        constructor
        · intro h
          exfalso
          have : (step ty w c).1.owned w.next = w.owned w.next := by
            by_cases hd : c.2 = .delete w.next
            · by_cases hdone : (step ty w c).2 = .done
              · exact absurd (hdel hd hdone).1 (hnot _)
              · exact hdel' hd hdone
            · have h3 : (view w c.1).next = w.next := rfl
              -- a call that makes nothing leaves the flag of the object still to come alone
              obtain ⟨s, op⟩ := c
              cases op with
              | create n => exact absurd ⟨n, rfl⟩ hcr
              | rename k name =>
                simp only [step, Registry.step, put]
                split
                · split
                  · rfl
                  · next r hr =>
                    simp only [setName] at hr
                    split at hr
                    · simp at hr
                    · split at hr <;> (simp at hr; subst hr; rfl)
                · rfl
              | delete k =>
                have hk : w.next ≠ k := fun e => hd (by simp [e])
                simp only [step, Registry.step, put]
                split
                · simp only [remove]
                  split
                  · next hm => split at hm <;> simp_all [view]
                  · next r hm =>
                    split at hm
                    · simp only [Option.some.injEq] at hm; subst hm; simp [upd, hk, view]
                    · simp at hm
                · rfl
              | lookup n => simp only [step, Registry.step, put]; split <;> rfl
              | query k => simp only [step, Registry.step, put]; split <;> rfl
          rw [this, hno] at h
          simp at h
        · rintro ⟨t, h⟩; exact absurd h (hall t)
    · by_cases hd : c.2 = .delete o
      · by_cases hdone : (step ty w c).2 = .done
        · obtain ⟨hm, hf⟩ := hdel hd hdone
          rw [hf]
          constructor
          · intro h; simp at h
          · rintro ⟨t, ht⟩
            rw [hobj] at ht
            rcases ht.1 with h | ⟨n, _, _, h⟩
            · have : t = c.1 := hw.apart _ _ o h hm
              exact absurd ⟨Prod.ext this.symm hd, hdone⟩ ht.2
            · exact absurd h hnew
        · rw [hdel' hd hdone, hw.own]
          constructor
          · rintro ⟨t, ht⟩
            exact ⟨t, (hobj t o).2 ⟨Or.inl ht, fun hx => hdone hx.2⟩⟩
          · rintro ⟨t, ht⟩
            rcases ((hobj t o).1 ht).1 with h | ⟨n, _, _, h⟩
            · exact ⟨t, h⟩
            · exact absurd h hnew
      · rw [show (step ty w c).1.owned o = w.owned o from (step_fields ty (view w c.1) c.2 o).2 hnew hd, hw.own]
        constructor
        · rintro ⟨t, ht⟩
          exact ⟨t, (hobj t o).2 ⟨Or.inl ht, fun hx => hd (by rw [hx.1])⟩⟩
        · rintro ⟨t, ht⟩
          rcases ((hobj t o).1 ht).1 with h | ⟨n, _, _, h⟩
          · exact ⟨t, h⟩
          · exact absurd h hnew

/-- A careful history: the objects of the registries are those that live in the scenes. -/
theorem reach (ty : Obj → Name) (calls : List Call) (hc : Careful (run ty calls).2) :
    WInv (run ty calls).1 ∧ (∀ s o, o ∈ (run ty calls).1.objects s ↔ LivesIn (run ty calls).2 s o) ∧
    (∀ s o, MadeIn (run ty calls).2 s o → o < (run ty calls).1.next) ∧
    (∀ s t o, MadeIn (run ty calls).2 s o → MadeIn (run ty calls).2 t o → s = t) ∧
    (∀ o, Gone (run ty calls).2 o → ∃ s, MadeIn (run ty calls).2 s o) := by
  induction calls using List.reverseRecOn with
  | nil =>
    refine ⟨winv_init, ?_, ?_, ?_, ?_⟩
    · intro s o; simp [run, LivesIn, MadeIn]
    · intro s o h; simp [run, MadeIn] at h
    · intro s t o h; simp [run, MadeIn] at h
    · intro o h; simp [run, Gone] at h
  | append_singleton calls c ih =>
    rw [run_snoc] at hc ⊢
    have hc0 : Careful (run ty calls).2 := by
      intro pre post s h n e
      exact hc pre (post ++ [(c, (step ty (run ty calls).1 c).2)]) s h n (by simp only [e]; simp)
    obtain ⟨hw, hl, hb, hone, hgm⟩ := ih hc0
    have hnf : ¬ ForeignRename (run ty calls).1 c := by
      rintro ⟨h, n, hr, hv, hm⟩
      have hout : (step ty (run ty calls).1 c).2 = .done := by
        obtain ⟨s, op⟩ := c
        simp only at hr
        subst hr
        simp only [step, Registry.step]
        rw [if_pos hv]
        simp only [setName]
        obtain ⟨n', hn'⟩ := makeUnique_terminates (view (run ty calls).1 s).reg.map n
        rw [hn']
        by_cases hx : n' = (view (run ty calls).1 s).reg.nameOf h
        · simp [hx]
        · simp [hx]
      have hmade := hc (run ty calls).2 [] c.1 h n (by
        simp only
        congr 1
        rw [hout]
        obtain ⟨s, op⟩ := c
        simp only at hr
        rw [hr])
      have hown : (run ty calls).1.owned h = true := by
        simp [Registry.valid, view] at hv; exact hv.2
      obtain ⟨t, ht⟩ := (hw.own h).1 hown
      have := hone t c.1 h ((hl t h).1 ht).1 hmade
      exact hm (this ▸ ht)
    have hobj := objects_step ty _ hw c
    have hw' := winv_step ty _ hw c hnf
    generalize hst : step ty (run ty calls).1 c = r at *
    obtain ⟨w', out⟩ := r
    simp only at *
    have hnl : (run ty calls).1.next ≤ w'.next := by
      have := next_le ty (run ty calls).1 c
      rw [hst] at this; exact this
    have made : ∀ s o, MadeIn ((run ty calls).2 ++ [(c, out)]) s o ↔
        MadeIn (run ty calls).2 s o ∨ ∃ n, c = (s, .create n) ∧ out = .handle o := by
      intro s o
      unfold MadeIn
      simp only [List.mem_append, List.mem_singleton, Prod.mk.injEq]
      constructor
      · rintro ⟨n, h | ⟨h1, h2⟩⟩
        · exact Or.inl ⟨n, h⟩
        · exact Or.inr ⟨n, h1.symm, h2.symm⟩
      · rintro (⟨n, h⟩ | ⟨n, h1, h2⟩)
        · exact ⟨n, Or.inl h⟩
        · exact ⟨n, Or.inr ⟨h1.symm, h2.symm⟩⟩
    have gone : ∀ o, Gone ((run ty calls).2 ++ [(c, out)]) o ↔ Gone (run ty calls).2 o ∨ ∃ s, c = (s, .delete o) ∧ out = .done := by
      intro o
      unfold Gone
      simp only [List.mem_append, List.mem_singleton, Prod.mk.injEq]
      constructor
      · rintro ⟨n, h | ⟨h1, h2⟩⟩
        · exact Or.inl ⟨n, h⟩
        · exact Or.inr ⟨n, h1.symm, h2.symm⟩
      · rintro (⟨n, h⟩ | ⟨n, h1, h2⟩)
        · exact ⟨n, Or.inl h⟩
        · exact ⟨n, Or.inr ⟨h1.symm, h2.symm⟩⟩
    -- what a creation returns
    have newId : ∀ s n o, c = (s, .create n) → out = .handle o → o = (run ty calls).1.next ∧ w'.next = (run ty calls).1.next + 1 := by
      intro s n o e1 e2
      obtain ⟨_, hcr, _⟩ := step_objs ty _ hw c o
      have := hcr ⟨n, by rw [e1]⟩
      rw [hst] at this
      simp only at this
      rw [e2] at this
      simp only [Out.handle.injEq] at this
      exact ⟨this.1, this.2.1⟩
    have delOwn : ∀ s o, c = (s, .delete o) → out = .done → o ∈ (run ty calls).1.objects s := by
      intro s o e1 e2
      obtain ⟨_, _, _, hd, _⟩ := step_objs ty _ hw c o
      have := hd (by rw [e1]) (by rw [hst]; exact e2)
      rw [e1] at this
      exact this.1
    refine ⟨hw', ?_, ?_, ?_, ?_⟩
    · intro s o
      rw [hobj]
      unfold LivesIn
      rw [made, gone]
      constructor
      · rintro ⟨h1 | ⟨n, h1, h2, h3⟩, h4⟩
        · obtain ⟨h5, h6⟩ := (hl s o).1 h1
          refine ⟨Or.inl h5, ?_⟩
          rintro (h | ⟨t, h7, h8⟩)
          · exact h6 h
          · have := hw.apart t s o (delOwn t o h7 h8) h1
            subst this
            exact h4 ⟨h7, h8⟩
        · refine ⟨Or.inr ⟨n, h1, h2⟩, ?_⟩
          rintro (h | ⟨t, h7, _⟩)
          · -- an object not yet made has not been deleted
            obtain ⟨s', hs'⟩ := hgm o h
            exact absurd h3 (Nat.ne_of_lt (hb s' o hs'))
          · rw [h1] at h7; simp at h7
      · rintro ⟨h1 | ⟨n, h1, h2⟩, h3⟩
        · refine ⟨Or.inl ((hl s o).2 ⟨h1, fun h => h3 (Or.inl h)⟩), fun hx => h3 (Or.inr ⟨s, hx⟩)⟩
        · exact ⟨Or.inr ⟨n, h1, h2, (newId s n o h1 h2).1⟩, fun hx => h3 (Or.inr ⟨s, hx⟩)⟩
    · intro s o h
      rcases (made s o).1 h with h | ⟨n, h1, h2⟩
      · exact Nat.lt_of_lt_of_le (hb s o h) hnl
      · obtain ⟨h3, h4⟩ := newId s n o h1 h2
        rw [h3, h4]
        exact Nat.lt_succ_self _
    · intro s t o h1 h2
      rcases (made s o).1 h1 with h1 | ⟨n, h1, h1'⟩ <;> rcases (made t o).1 h2 with h2 | ⟨m, h2, h2'⟩
      · exact hone s t o h1 h2
      · exact absurd (newId t m o h2 h2').1 (Nat.ne_of_lt (hb s o h1))
      · exact absurd (newId s n o h1 h1').1 (Nat.ne_of_lt (hb t o h2))
      · rw [h1] at h2; simpa using congrArg Prod.fst h2
    · intro o h
      rcases (gone o).1 h with h | ⟨s, h1, h2⟩
      · obtain ⟨s, hs⟩ := hgm o h
        exact ⟨s, (made s o).2 (Or.inl hs)⟩
      · exact ⟨s, (made s o).2 (Or.inl ((hl s o).1 (delOwn s o h1 h2)).1)⟩

/-! ## Theorems -/

/-- **C150 (partial).** If objects are renamed only by the scene that made them, an object that lives in a scene has a name, and
that scene finds it under this name, however many scenes there are. -/
theorem C150_partial (ty : Obj → Name) (calls : List Call) (hc : Careful (run ty calls).2) (s : Nat) (o : Obj)
    (h : LivesIn (run ty calls).2 s o) :
    ∃ n, answer ty calls (s, .query o) = .named n ∧ answer ty calls (s, .lookup n) = .handle o := by
  obtain ⟨hw, hl, _⟩ := reach ty calls hc
  have hm := (hl s o).2 h
  refine ⟨(run ty calls).1.nameOf o, ?_, ?_⟩
  · simp [answer, step, Registry.step, Registry.valid, view, hw.below hm, (hw.own o).2 ⟨s, hm⟩]
  · have := (hw.each s).fwd o hm
    simp only [solo] at this
    simp [answer, step, Registry.step, view, this]

/-- **C150 (partial).** ... what a scene finds under a name is an object that lives in it and has this name; so objects of one
scene have different names, while objects of different scenes may share one. -/
theorem C150_found_partial (ty : Obj → Name) (calls : List Call) (hc : Careful (run ty calls).2) (s : Nat) (n : Name) (o : Obj)
    (h : answer ty calls (s, .lookup n) = .handle o) :
    LivesIn (run ty calls).2 s o ∧ ∀ t, answer ty calls (t, .query o) = .named n := by
  obtain ⟨hw, hl, _⟩ := reach ty calls hc
  simp only [answer, step, Registry.step] at h
  have hf : find ((run ty calls).1.map s) n = some o := by
    cases hx : find (view (run ty calls).1 s).reg.map n with
    | none => rw [hx] at h; simp at h
    | some p => rw [hx] at h; simp only [Out.handle.injEq] at h; rw [← h]; exact hx
  obtain ⟨h1, h2⟩ := (hw.each s).back n o hf
  simp only [solo] at h1 h2
  refine ⟨(hl s o).1 h1, fun t => ?_⟩
  simp [answer, step, Registry.step, Registry.valid, view, hw.below h1, (hw.own o).2 ⟨s, h1⟩, h2]

/-- **C150.** Whatever handle is passed to a call on a scene, no other scene finds anything else than before. -/
theorem C150_lookups (ty : Obj → Name) (calls : List Call) (c : Call) (t : Nat) (ht : t ≠ c.1) (n : Name) :
    answer ty (calls ++ [c]) (t, .lookup n) = answer ty calls (t, .lookup n) := by
  have : (run ty (calls ++ [c])).1.map t = (run ty calls).1.map t := by
    rw [run_snoc]; simp [step, put, ht]
  simp only [answer, step, Registry.step, view, this]
  split <;> rfl

/-- **C150 (partial).** A careful call on a scene changes no name of an object of another scene and deletes none. -/
theorem C150_frame_partial (ty : Obj → Name) (calls : List Call) (c : Call) (hc : Careful (run ty (calls ++ [c])).2) (t : Nat)
    (ht : t ≠ c.1) (o : Obj) (ho : LivesIn (run ty calls).2 t o) :
    LivesIn (run ty (calls ++ [c])).2 t o ∧ answer ty (calls ++ [c]) (t, .query o) = answer ty calls (t, .query o) := by
  have hc0 : Careful (run ty calls).2 := by
    intro pre post s h n e
    rw [run_snoc] at hc
    exact hc pre (post ++ [(c, (step ty (run ty calls).1 c).2)]) s h n (by simp only [e]; simp)
  obtain ⟨hw, hl, hb, hone, _⟩ := reach ty calls hc0
  obtain ⟨hw', hl', _⟩ := reach ty (calls ++ [c]) hc
  have hm := (hl t o).2 ho
  have hm' : o ∈ (run ty (calls ++ [c])).1.objects t := by
    rw [run_snoc]; simpa [step, put, ht] using hm
  refine ⟨(hl' t o).1 hm', ?_⟩
  have hv := (hw.own o).2 ⟨t, hm⟩
  have hname : (run ty (calls ++ [c])).1.nameOf o = (run ty calls).1.nameOf o := by
    have h1 := (hw.each t).fwd o hm
    have h2 := (hw'.each t).fwd o hm'
    have h3 := (hw'.each t).back ((run ty calls).1.nameOf o) o (by
      have : (run ty (calls ++ [c])).1.map t = (run ty calls).1.map t := by rw [run_snoc]; simp [step, put, ht]
      simpa [solo, this] using h1)
    exact h3.2
  simp [answer, step, Registry.step, Registry.valid, view, hw.below hm, hv, hw'.below hm', (hw'.own o).2 ⟨t, hm'⟩, hname]

/-- **C150 (partial).** Deleting an object through a scene it does not live in throws and changes nothing. -/
theorem C150_foreign_delete_partial (ty : Obj → Name) (calls : List Call) (hc : Careful (run ty calls).2) (s : Nat) (o : Obj)
    (ho : ¬ LivesIn (run ty calls).2 s o) :
    answer ty calls (s, .delete o) = .throw ∧
      ∀ c, answer ty (calls ++ [(s, .delete o)]) c = answer ty calls c := by
  obtain ⟨hw, hl, _⟩ := reach ty calls hc
  have hm : o ∉ (run ty calls).1.objects s := fun h => ho ((hl s o).1 h)
  have hst : step ty (run ty calls).1 (s, .delete o) = ((run ty calls).1, .throw) := by
    have hput : put (run ty calls).1 s (view (run ty calls).1 s) = (run ty calls).1 := by
      generalize (run ty calls).1 = w
      obtain ⟨a, b, d, e, f⟩ := w
      simp only [put, view, Worlds.mk.injEq, and_true]
      constructor <;> (funext t; split <;> simp_all)
    simp only [step, Registry.step]
    split
    · simp only [remove, view, hm, if_false]
      exact Prod.ext hput rfl
    · exact Prod.ext hput rfl
  refine ⟨by simp only [answer, hst], fun c => ?_⟩
  simp only [answer, run_snoc, hst]

/-- Two scenes: object 0 "a" in scene 0, object 1 "a" in scene 1, and scene 1 is asked to rename object 0. -/
def mixed : List Call := [(0, .create ['a']), (1, .create ['a']), (1, .rename 0 ['b'])]

/-- **C150 violated.** `set_name` accepts the handle of another scene: afterwards the object's own scene does not find it under
its name, and the object that had the same name in the scene called is not found at all any more. -/
theorem C150_violated_rename :
    (let ty : Obj → Name := fun _ => ['M']
     LivesIn (run ty mixed).2 0 0 ∧ answer ty mixed (0, .query 0) = .named ['b'] ∧ answer ty mixed (0, .lookup ['b']) = .throw ∧
     LivesIn (run ty mixed).2 1 1 ∧ answer ty mixed (1, .query 1) = .named ['a'] ∧ answer ty mixed (1, .lookup ['a']) = .throw ∧
     answer ty mixed (1, .lookup ['b']) = .handle 0) := by
  refine ⟨⟨⟨['a'], by decide⟩, ?_⟩, by decide, by decide, ⟨⟨['a'], by decide⟩, ?_⟩, by decide, by decide, by decide⟩
  · rintro ⟨s, h⟩; simp [run, mixed] at h
  · rintro ⟨s, h⟩; simp [run, mixed] at h

theorem C150_violated : ¬ C150_full := by
  intro h
  obtain ⟨h1, h2, h3, _⟩ := C150_violated_rename
  obtain ⟨n, h4, h5⟩ := h _ _ _ _ h1
  rw [h2] at h4
  simp only [Out.named.injEq] at h4
  subst h4
  rw [h3] at h5
  simp at h5

/-- Non-vacuity: a careful history on two scenes with a rename, a shared name and a deletion. -/
example : let ty : Obj → Name := fun _ => ['M']
    let calls : List Call := [(0, .create ['a']), (1, .create ['a']), (1, .rename 1 ['b']), (0, .create []), (0, .delete 0)]
    Careful (run ty calls).2 ∧ answer ty calls (1, .lookup ['b']) = .handle 1 ∧ answer ty calls (0, .lookup ['M', '.', '2']) = .handle 2 := by
  refine ⟨?_, by decide, by decide⟩
  intro pre post s h n e
  have e' : (run (fun _ => ['M']) [(0, .create ['a']), (1, .create ['a']), (1, .rename 1 ['b']), (0, .create []), (0, .delete 0)]).2 =
      [((0, .create ['a']), .handle 0), ((1, .create ['a']), .handle 1), ((1, .rename 1 ['b']), .done), ((0, .create []), .handle 2),
       ((0, .delete 0), .done)] := by decide
  rw [e'] at e
  match pre, e with
  | [], e => simp at e
  | [_], e => simp at e
  | [a, b], e =>
    simp only [List.cons_append, List.nil_append, List.cons.injEq, Prod.mk.injEq, Op.rename.injEq] at e
    obtain ⟨_, rfl, ⟨⟨rfl, rfl, _⟩, _⟩, _⟩ := e
    exact ⟨['a'], by simp⟩
  | [_, _, _], e => simp at e
  | [_, _, _, _], e => simp at e
  | _ :: _ :: _ :: _ :: _ :: _, e => simp at e

end Huira.Registry.Scenes
