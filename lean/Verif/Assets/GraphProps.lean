import Verif.Assets.Graph
import Mathlib.Data.List.Nodup
/-!
# C127: using a loaded model, whatever was deleted before

`Alive s p`: the primitive still exists. `Uses s f mat`: a primitive of the graph `f` has the material `mat`.
-/
set_option linter.unusedSimpArgs false
namespace Huira.AssetGraph

/-- The primitives of a node. -/
def Node.prims : Node → List ℕ
  | .inst p => [p]
  | .frame kids => kids.prims

theorem nodes_prims (f : Forest) : f.nodes.flatMap Node.prims = f.prims := by
  induction f with
  | nil => rfl
  | inst p rest ih => simp [Forest.nodes, Forest.prims, Node.prims, ih]
  | frame kids rest _ ih => simp [Forest.nodes, Forest.prims, Node.prims, ih]

theorem flatMap_reverse_perm (l : List Node) : (l.reverse.flatMap Node.prims).Perm (l.flatMap Node.prims) :=
  List.Perm.flatMap_right _ (List.reverse_perm l)

/-- The walk meets every primitive as often as the graph has it. -/
theorem dfs_perm (st : List Node) : (dfs st).Perm (st.flatMap Node.prims) := by
  induction st using dfs.induct with
  | case1 => simp [dfs]
  | case2 p st ih => rw [dfs]; simpa [Node.prims] using ih
  | case3 kids st ih =>
    rw [dfs]
    refine ih.trans ?_
    rw [List.flatMap_append, List.flatMap_cons]
    refine List.Perm.append ?_ (List.Perm.refl _)
    refine (flatMap_reverse_perm _).trans ?_
    rw [nodes_prims]
    exact List.Perm.refl _

theorem dfs_root (f : Forest) : (dfs [.frame f]).Perm f.prims := by
  simpa [Node.prims] using dfs_perm [.frame f]

theorem mem_dfs (f : Forest) (p : ℕ) : p ∈ dfs [.frame f] ↔ p ∈ f.prims := (dfs_root f).mem_iff

/-- The primitive still exists. -/
def Alive (s : Scene) (p : ℕ) : Prop := ∃ q ∈ s.prims, q.id = p

/-- A primitive of the graph has the material. -/
def Uses (s : Scene) (f : Forest) (mat : ℕ) : Prop := ∃ p ∈ f.prims, ∃ q ∈ s.prims, q.id = p ∧ q.mat = mat

/-- The scenes a program can reach. -/
def Reach (s : Scene) : Prop := ∃ ops, s = run {} ops

/-- What always holds. -/
structure Inv (s : Scene) : Prop where
  primNodup : (s.prims.map (·.id)).Nodup
  modelNodup : (s.models.map (·.1)).Nodup
  primLt : ∀ q ∈ s.prims, q.id < s.next
  modelLt : ∀ e ∈ s.models, e.1 < s.next
  forestLt : ∀ e ∈ s.models, ∀ p ∈ e.2.prims, p < s.next
  instPrim : ∀ p, Ref.prim p ∈ s.insts → Alive s p
  instModel : ∀ m, Ref.model m ∈ s.insts → m ∈ s.models.map (·.1)

theorem at_some {s : Scene} {p : ℕ} {q : Prim} (h : s.at p = some q) : q ∈ s.prims ∧ q.id = p := by
  refine ⟨List.mem_of_find?_eq_some h, ?_⟩
  simpa using List.find?_some h

theorem at_isSome (s : Scene) (p : ℕ) : (s.at p).isSome ↔ Alive s p := by
  simp [Scene.at, Alive]

theorem at_none (s : Scene) (p : ℕ) : s.at p = none ↔ ¬ Alive s p := by
  rw [← at_isSome]; cases s.at p <;> simp

theorem inj_of_nodup {α : Type} {l : List α} {g : α → ℕ} (h : (l.map g).Nodup) {a b : α} (ha : a ∈ l) (hb : b ∈ l)
    (e : g a = g b) : a = b := List.inj_on_of_nodup_map h ha hb e

theorem at_eq {s : Scene} (h : (s.prims.map (·.id)).Nodup) {q : Prim} (hq : q ∈ s.prims) : s.at q.id = some q := by
  have : (s.at q.id).isSome := (at_isSome s q.id).2 ⟨q, hq, rfl⟩
  obtain ⟨r, hr⟩ := Option.isSome_iff_exists.1 this
  obtain ⟨h1, h2⟩ := at_some hr
  rw [hr, inj_of_nodup h h1 hq h2]

theorem find_model {s : Scene} (h : (s.models.map (·.1)).Nodup) {m : ℕ} {f : Forest} (hm : (m, f) ∈ s.models) :
    (s.models.find? fun e => e.1 = m) = some (m, f) := by
  have : (s.models.find? fun e => e.1 = m).isSome := by
    rw [List.find?_isSome]; exact ⟨(m, f), hm, by simp⟩
  obtain ⟨r, hr⟩ := Option.isSome_iff_exists.1 this
  have h1 := List.mem_of_find?_eq_some hr
  have h2 : r.1 = m := by simpa using List.find?_some hr
  rw [hr, inj_of_nodup h h1 hm h2]

theorem find_model_some {s : Scene} {m : ℕ} {e : ℕ × Forest} (h : (s.models.find? fun e => e.1 = m) = some e) :
    (m, e.2) ∈ s.models := by
  have h1 := List.mem_of_find?_eq_some h
  have h2 : e.1 = m := by simpa using List.find?_some h
  rw [← h2]; exact h1

theorem find_model_none {s : Scene} {m : ℕ} (h : (s.models.find? fun e => e.1 = m) = none) (f : Forest) :
    (m, f) ∉ s.models := by
  intro hm
  have := List.find?_eq_none.1 h _ hm
  simp at this

theorem shift_prims (k : ℕ) (f : Forest) : (f.shift k).prims = f.prims.map (k + ·) := by
  induction f with
  | nil => rfl
  | inst p rest ih => simp [Forest.shift, Forest.prims, ih]
  | frame kids rest ih1 ih2 => simp [Forest.shift, Forest.prims, ih1, ih2]

theorem map_zipIdx_fst_snd (l : List ℕ) (g : ℕ → ℕ → Prim) (c : ℕ) (h : ∀ a i, (g a i).id = c + i) :
    ((l.zipIdx.map fun e => g e.1 e.2).map (·.id)) = (List.range l.length).map (c + ·) := by
  rw [List.map_map]
  apply List.ext_getElem
  · simp
  · intro i h1 h2; simp [h]

/-! ### preservation -/

theorem load_inv {s : Scene} (h : Inv s) (mats : ℕ) (meshes : List ℕ) (root : Forest) :
    Inv (loadModel s mats meshes root).1 := by
  unfold loadModel
  split_ifs with hc
  · have hid := map_zipIdx_fst_snd meshes
      (fun a i => ⟨s.next + mats + meshes.length + i, s.next + mats + i, s.next + a⟩)
      (s.next + mats + meshes.length) (fun _ _ => rfl)
    refine ⟨?_, ?_, ?_, ?_, ?_, ?_, ?_⟩
    · show ((s.prims ++ _).map (·.id)).Nodup
      rw [List.map_append, hid, List.nodup_append]
      refine ⟨h.primNodup, ?_, ?_⟩
      · exact List.nodup_range.map (fun a b hab => by simpa using hab)
      · intro a ha b hb e
        obtain ⟨q, hq, rfl⟩ := List.mem_map.1 ha
        obtain ⟨i, _, rfl⟩ := List.mem_map.1 hb
        have := h.primLt q hq
        omega
    · show ((s.models ++ _).map (·.1)).Nodup
      rw [List.map_append, List.nodup_append]
      refine ⟨h.modelNodup, by simp, ?_⟩
      intro a ha b hb e
      obtain ⟨q, hq, rfl⟩ := List.mem_map.1 ha
      simp at hb
      have := h.modelLt q hq
      omega
    · intro q hq
      simp only [List.mem_append] at hq
      show q.id < _ + 1
      rcases hq with hq | hq
      · have := h.primLt q hq; omega
      · have := List.mem_map_of_mem (f := Prim.id) hq
        rw [hid] at this
        obtain ⟨i, hi, e⟩ := List.mem_map.1 this
        have := List.mem_range.1 hi
        omega
    · intro e he
      simp only [List.mem_append, List.mem_singleton] at he
      show e.1 < _ + 1
      rcases he with he | rfl
      · have := h.modelLt e he; omega
      · simp
    · intro e he p hp
      simp only [List.mem_append, List.mem_singleton] at he
      show p < _ + 1
      rcases he with he | rfl
      · have := h.forestLt e he p hp; omega
      · simp only [shift_prims] at hp
        obtain ⟨i, hi, rfl⟩ := List.mem_map.1 hp
        have := hc.2 i hi
        omega
    · intro p hp
      obtain ⟨q, hq, e⟩ := h.instPrim p hp
      exact ⟨q, List.mem_append_left _ hq, e⟩
    · intro m hm
      have := h.instModel m hm
      show m ∈ (s.models ++ _).map (·.1)
      rw [List.map_append]
      exact List.mem_append_left _ this
  · exact h

theorem deletePrimitive_inv {s : Scene} (h : Inv s) (p : ℕ) : Inv (deletePrimitive s p).1 := by
  unfold deletePrimitive
  split_ifs with h1 h2
  · exact h
  · exact h
  · refine ⟨?_, h.modelNodup, ?_, h.modelLt, h.forestLt, ?_, h.instModel⟩
    · exact h.primNodup.sublist (List.filter_sublist.map _)
    · intro q hq; exact h.primLt q (List.mem_filter.1 hq).1
    · intro p' hp'
      obtain ⟨q, hq, e⟩ := h.instPrim p' hp'
      refine ⟨q, List.mem_filter.2 ⟨hq, ?_⟩, e⟩
      have : p' ≠ p := by rintro rfl; exact h2 hp'
      simpa [e] using this

theorem purge_inv {s : Scene} (h : Inv s) (ps : List ℕ) : Inv (purge s ps).1 := by
  induction ps generalizing s with
  | nil => exact h
  | cons p ps ih =>
    rw [purge]
    split_ifs
    · exact ih (deletePrimitive_inv h p)
    · exact deletePrimitive_inv h p

theorem setAll_same (s : Scene) (b : ℕ) (ps : List ℕ) :
    (setAll s b ps).1 = { s with bsdf := (setAll s b ps).1.bsdf } := by
  induction ps generalizing s with
  | nil => rfl
  | cons p ps ih =>
    rw [setAll]
    split
    · rfl
    · rw [ih]

theorem step_inv {s : Scene} (h : Inv s) (op : Op) : Inv (step s op).1 := by
  cases op with
  | load mats meshes root => exact load_inv h mats meshes root
  | instPrim p =>
    simp only [step]
    split_ifs with hp
    · refine ⟨h.primNodup, h.modelNodup, h.primLt, h.modelLt, h.forestLt, ?_, ?_⟩
      · intro p' hp'
        simp only [List.mem_append, List.mem_singleton, Ref.prim.injEq] at hp'
        rcases hp' with hp' | rfl
        · exact h.instPrim p' hp'
        · exact (at_isSome s p').1 hp
      · intro m hm
        simp only [List.mem_append, List.mem_singleton, reduceCtorEq, or_false] at hm
        exact h.instModel m hm
    · exact h
  | instModel m =>
    simp only [step]
    split_ifs with hp
    · refine ⟨h.primNodup, h.modelNodup, h.primLt, h.modelLt, h.forestLt, ?_, ?_⟩
      · intro p' hp'
        simp only [List.mem_append, List.mem_singleton, reduceCtorEq, or_false] at hp'
        exact h.instPrim p' hp'
      · intro m' hm
        simp only [List.mem_append, List.mem_singleton, Ref.model.injEq] at hm
        rcases hm with hm | rfl
        · exact h.instModel m' hm
        · exact hp
    · exact h
  | deletePrim p => exact deletePrimitive_inv h p
  | deleteGeom g =>
    simp only [step]
    split_ifs with h1 h2
    · have := purge_inv h ((s.prims.filter fun q => q.geom = g).map (·.id))
      exact ⟨this.primNodup, this.modelNodup, this.primLt, this.modelLt, this.forestLt, this.instPrim, this.instModel⟩
    · exact purge_inv h _
    · exact h
  | deleteModel m =>
    simp only [step]
    split_ifs with h1 h2
    · exact h
    · refine ⟨h.primNodup, ?_, h.primLt, ?_, ?_, h.instPrim, ?_⟩
      · exact h.modelNodup.sublist (List.filter_sublist.map _)
      · intro e he; exact h.modelLt e (List.mem_filter.1 he).1
      · intro e he; exact h.forestLt e (List.mem_filter.1 he).1
      · intro m' hm'
        have hne : m' ≠ m := by rintro rfl; exact h2 hm'
        obtain ⟨e, he, rfl⟩ := List.mem_map.1 (h.instModel m' hm')
        exact List.mem_map.2 ⟨e, List.mem_filter.2 ⟨he, by simpa using hne⟩, rfl⟩
    · exact h
  | setAll m b =>
    simp only [step]
    split
    · exact h
    · rw [setAll_same]
      exact ⟨h.primNodup, h.modelNodup, h.primLt, h.modelLt, h.forestLt, h.instPrim, h.instModel⟩
  | find m mat =>
    simp only [step]
    split <;> exact h
  | render => exact h

theorem run_inv {s : Scene} (h : Inv s) (ops : List Op) : Inv (run s ops) := by
  induction ops generalizing s with
  | nil => exact h
  | cons op ops ih => exact ih (step_inv h op)

theorem inv_init : Inv {} := by
  refine ⟨?_, ?_, ?_, ?_, ?_, ?_, ?_⟩ <;> simp

theorem Reach.inv {s : Scene} (h : Reach s) : Inv s := by
  obtain ⟨ops, rfl⟩ := h
  exact run_inv inv_init ops

/-! ### the loops -/

theorem setAll_out (s : Scene) (b : ℕ) (ps : List ℕ) :
    ((setAll s b ps).2 = .done ∧ ∀ p ∈ ps, Alive s p) ∨ ((setAll s b ps).2 = .crash ∧ ∃ p ∈ ps, ¬ Alive s p) := by
  induction ps generalizing s with
  | nil => left; exact ⟨rfl, by simp⟩
  | cons p ps ih =>
    rw [setAll]
    split
    · rename_i hn
      right; exact ⟨rfl, p, by simp, (at_none s p).1 hn⟩
    · rename_i q hq
      have hp : Alive s p := (at_isSome s p).1 (by rw [hq]; rfl)
      rcases ih { s with bsdf := fun m => if m = q.mat then b else s.bsdf m } with ⟨h1, h2⟩ | ⟨h1, p', h2, h3⟩
      · left
        refine ⟨h1, ?_⟩
        intro p' hp'
        rcases List.mem_cons.1 hp' with rfl | hp'
        · exact hp
        · exact h2 p' hp'
      · right; exact ⟨h1, p', List.mem_cons_of_mem _ h2, h3⟩

open Classical in
theorem setAll_bsdf (s : Scene) (b : ℕ) (ps : List ℕ) (h : ∀ p ∈ ps, Alive s p) (m : ℕ) :
    (setAll s b ps).1.bsdf m = if ∃ p ∈ ps, ∃ q, s.at p = some q ∧ q.mat = m then b else s.bsdf m := by
  induction ps generalizing s with
  | nil => simp [setAll]
  | cons p ps ih =>
    rw [setAll]
    split
    · rename_i hn
      exact absurd (h p (by simp)) ((at_none s p).1 hn)
    · rename_i q hq
      rw [ih]
      · have hat : ∀ (x : ℕ), Scene.at { s with bsdf := fun m => if m = q.mat then b else s.bsdf m } x = s.at x :=
          fun _ => rfl
        simp only [hat]
        by_cases h1 : ∃ p ∈ ps, ∃ q, s.at p = some q ∧ q.mat = m
        · rw [if_pos h1, if_pos]
          obtain ⟨p', hp', r⟩ := h1
          exact ⟨p', List.mem_cons_of_mem _ hp', r⟩
        · rw [if_neg h1]
          by_cases h2 : m = q.mat
          · rw [if_pos h2, if_pos]
            exact ⟨p, by simp, q, hq, h2.symm⟩
          · rw [if_neg h2, if_neg]
            rintro ⟨p', hp', q', hq', e⟩
            rcases List.mem_cons.1 hp' with rfl | hp'
            · rw [hq] at hq'; cases hq'; exact h2 e.symm
            · exact h1 ⟨p', hp', q', hq', e⟩
      · intro p' hp'
        exact h p' (List.mem_cons_of_mem _ hp')

theorem uses_iff {s : Scene} (h : Inv s) (f : Forest) (mat : ℕ) :
    (∃ p ∈ dfs [.frame f], ∃ q, s.at p = some q ∧ q.mat = mat) ↔ Uses s f mat := by
  constructor
  · rintro ⟨p, hp, q, hq, e⟩
    obtain ⟨h1, h2⟩ := at_some hq
    exact ⟨p, (mem_dfs f p).1 hp, q, h1, h2, e⟩
  · rintro ⟨p, hp, q, hq, rfl, e⟩
    exact ⟨q.id, (mem_dfs f _).2 hp, q, at_eq h.primNodup hq, e⟩

theorem search_spec (s : Scene) (mat : ℕ) (ps : List ℕ) (h : ∀ p ∈ ps, Alive s p) :
    (search s mat ps = .created mat ∧ ∃ p ∈ ps, ∃ q, s.at p = some q ∧ q.mat = mat) ∨
      (search s mat ps = .throw ∧ ¬ ∃ p ∈ ps, ∃ q, s.at p = some q ∧ q.mat = mat) := by
  induction ps with
  | nil => right; exact ⟨rfl, by simp⟩
  | cons p ps ih =>
    rw [search]
    split
    · rename_i hn
      exact absurd (h p (by simp)) ((at_none s p).1 hn)
    · rename_i q hq
      split_ifs with hm
      · left; exact ⟨rfl, p, by simp, q, hq, hm⟩
      · rcases ih (fun p' hp' => h p' (List.mem_cons_of_mem _ hp')) with ⟨h1, p', hp', r⟩ | ⟨h1, h2⟩
        · left; exact ⟨h1, p', List.mem_cons_of_mem _ hp', r⟩
        · right
          refine ⟨h1, ?_⟩
          rintro ⟨p', hp', q', hq', e⟩
          rcases List.mem_cons.1 hp' with rfl | hp'
          · rw [hq] at hq'; cases hq'; exact hm e
          · exact h2 ⟨p', hp', q', hq', e⟩

theorem search_crash (s : Scene) (mat : ℕ) (ps : List ℕ) (h : search s mat ps = .crash) : ∃ p ∈ ps, ¬ Alive s p := by
  by_contra hn
  have hn' : ∀ p ∈ ps, Alive s p := by
    intro p hp; by_contra ha; exact hn ⟨p, hp, ha⟩
  rcases search_spec s mat ps hn' with ⟨h1, _⟩ | ⟨h1, _⟩ <;> rw [h1] at h <;> cases h

theorem search_values (s : Scene) (mat : ℕ) (ps : List ℕ) :
    search s mat ps = .throw ∨ search s mat ps = .crash ∨ search s mat ps = .created mat := by
  induction ps with
  | nil => left; rfl
  | cons p ps ih =>
    rw [search]
    split
    · right; left; rfl
    · split_ifs
      · right; right; rfl
      · exact ih

/-! ### the properties -/

open Classical in
/-- **C127 (setting every BSDF)** After `set_all_bsdfs` every material used by the model has the BSDF, every other material has the
one it had, and nothing else has changed. -/
theorem C127_set_all {s : Scene} (h : Reach s) (m b : ℕ) (hd : (step s (.setAll m b)).2 = .done) :
    ∃ f, (m, f) ∈ s.models ∧
      (∀ mat, (step s (.setAll m b)).1.bsdf mat = if Uses s f mat then b else s.bsdf mat) ∧
      (step s (.setAll m b)).1 = { s with bsdf := (step s (.setAll m b)).1.bsdf } := by
  simp only [step] at hd ⊢
  split at hd
  · cases hd
  · rename_i e he
    refine ⟨e.2, find_model_some he, ?_, setAll_same _ _ _⟩
    intro mat
    have ha : ∀ p ∈ dfs [.frame e.2], Alive s p := by
      rcases setAll_out s b (dfs [.frame e.2]) with ⟨_, h2⟩ | ⟨h1, _⟩
      · exact h2
      · rw [h1] at hd; cases hd
    rw [setAll_bsdf _ _ _ ha]
    exact if_congr (uses_iff h.inv _ _) rfl rfl

/-- **C127 (finding a material)** As long as the primitives of the model exist, looking a material up succeeds exactly when some
primitive of the model uses it and throws otherwise. -/
theorem C127_find {s : Scene} (h : Reach s) {m : ℕ} {f : Forest} (hm : (m, f) ∈ s.models)
    (ha : ∀ p ∈ f.prims, Alive s p) (mat : ℕ) :
    step s (.find m mat) = (s, .created mat) ∧ Uses s f mat ∨ step s (.find m mat) = (s, .throw) ∧ ¬ Uses s f mat := by
  simp only [step, find_model h.inv.modelNodup hm]
  rcases search_spec s mat (dfs [.frame f]) (fun p hp => ha p ((mem_dfs f p).1 hp)) with ⟨h1, h2⟩ | ⟨h1, h2⟩
  · left; exact ⟨by rw [h1], (uses_iff h.inv f mat).1 h2⟩
  · right; exact ⟨by rw [h1], fun hu => h2 ((uses_iff h.inv f mat).2 hu)⟩

/-- **C127 (instances of the scene)** What has an instance in the scene graph exists. -/
theorem C127_instances {s : Scene} (h : Reach s) :
    (∀ p, Ref.prim p ∈ s.insts → Alive s p) ∧ ∀ m, Ref.model m ∈ s.insts → ∃ f, (m, f) ∈ s.models := by
  refine ⟨h.inv.instPrim, fun m hm => ?_⟩
  obtain ⟨e, he, rfl⟩ := List.mem_map.1 (h.inv.instModel m hm)
  exact ⟨e.2, he⟩

/-- A model of the scene has lost the primitive. -/
def Broken (s : Scene) (m p : ℕ) : Prop := ∃ f, (m, f) ∈ s.models ∧ p ∈ f.prims ∧ ¬ Alive s p

theorem render_values (s : Scene) : render s = .done ∨ render s = .crash := by
  unfold render; split_ifs <;> simp

theorem render_crash {s : Scene} (h : Inv s) : render s = .crash ↔ ∃ m p, Ref.model m ∈ s.insts ∧ Broken s m p := by
  unfold render
  constructor
  · intro hr
    split_ifs at hr with hc
    by_contra hn
    apply hc
    intro r hr'
    cases r with
    | prim p => exact ⟨[p], rfl, by simpa [at_isSome] using h.instPrim p hr'⟩
    | model m =>
      obtain ⟨e, he, rfl⟩ := List.mem_map.1 (h.instModel m hr')
      refine ⟨dfs [.frame e.2], ?_, ?_⟩
      · simp only [Scene.reads, find_model h.modelNodup (f := e.2) he, Option.map_some]
      · intro p hp
        rw [at_isSome]
        by_contra ha
        exact hn ⟨e.1, p, hr', e.2, he, (mem_dfs _ _).1 hp, ha⟩
  · rintro ⟨m, p, hm, f, hf, hp, ha⟩
    rw [if_neg]
    intro hc
    obtain ⟨ps, h1, h2⟩ := hc _ hm
    simp only [Scene.reads, find_model h.modelNodup hf, Option.map_some, Option.some.injEq] at h1
    subst h1
    exact ha ((at_isSome s p).1 (h2 p ((mem_dfs f p).2 hp)))

theorem purge_out (s : Scene) (ps : List ℕ) : (purge s ps).2 = .done ∨ (purge s ps).2 = .throw := by
  induction ps generalizing s with
  | nil => left; rfl
  | cons p ps ih =>
    rw [purge]
    split_ifs with hd
    · exact ih _
    · unfold deletePrimitive at hd ⊢
      split_ifs at hd ⊢ <;> simp at hd ⊢

/-- **C127 (when a call reads a destroyed object)** Rendering does exactly when a model with an instance in the scene has lost a
primitive; setting all BSDFs exactly when that model has; looking up a material only then; no other call does. -/
theorem C127_crash_iff {s : Scene} (h : Reach s) (op : Op) :
    match op with
    | .render => (step s op).2 = .crash ↔ ∃ m p, Ref.model m ∈ s.insts ∧ Broken s m p
    | .setAll m _ => (step s op).2 = .crash ↔ ∃ p, Broken s m p
    | .find m _ => (step s op).2 = .crash → ∃ p, Broken s m p
    | _ => (step s op).2 ≠ .crash := by
  cases op with
  | load mats meshes root => simp only [step, loadModel]; split_ifs <;> simp
  | instPrim p => simp only [step]; split_ifs <;> simp
  | instModel m => simp only [step]; split_ifs <;> simp
  | deletePrim p => simp only [step, deletePrimitive]; split_ifs <;> simp
  | deleteGeom g =>
    simp only [step]
    split_ifs with h1 h2
    · simp
    · rcases purge_out s ((s.prims.filter fun q => q.geom = g).map (·.id)) with hp | hp <;> rw [hp] <;> simp
    · simp
  | deleteModel m => simp only [step]; split_ifs <;> simp
  | render => exact render_crash h.inv
  | setAll m b =>
    simp only [step]
    split
    · rename_i hn
      constructor
      · intro hc; cases hc
      · rintro ⟨p, f, hf, _⟩; exact absurd hf (find_model_none hn f)
    · rename_i e he
      constructor
      · intro hc
        rcases setAll_out s b (dfs [.frame e.2]) with ⟨h1, _⟩ | ⟨_, p, hp, ha⟩
        · rw [h1] at hc; cases hc
        · exact ⟨p, e.2, find_model_some he, (mem_dfs _ _).1 hp, ha⟩
      · rintro ⟨p, f, hf, hp, ha⟩
        rw [find_model h.inv.modelNodup hf] at he
        cases he
        rcases setAll_out s b (dfs [.frame f]) with ⟨_, h2⟩ | ⟨h1, _⟩
        · exact absurd (h2 p ((mem_dfs _ _).2 hp)) ha
        · exact h1
  | find m mat =>
    simp only [step]
    split
    · intro hc; cases hc
    · rename_i e he
      intro hc
      obtain ⟨p, hp, ha⟩ := search_crash s mat _ hc
      exact ⟨p, e.2, find_model_some he, (mem_dfs _ _).1 hp, ha⟩

/-- No call of the program removes a primitive of a model that exists at that moment. -/
def Careful (s : Scene) : List Op → Prop
  | [] => True
  | op :: ops =>
    (∀ p, Alive s p → ¬ Alive (step s op).1 p → ∀ e ∈ s.models, p ∉ e.2.prims) ∧ Careful (step s op).1 ops

/-- Every primitive of every model exists. -/
def Whole (s : Scene) : Prop := ∀ e ∈ s.models, ∀ p ∈ e.2.prims, Alive s p

theorem deletePrimitive_models (s : Scene) (p : ℕ) : (deletePrimitive s p).1.models = s.models := by
  unfold deletePrimitive; split_ifs <;> rfl

theorem purge_models (s : Scene) (ps : List ℕ) : (purge s ps).1.models = s.models := by
  induction ps generalizing s with
  | nil => rfl
  | cons p ps ih =>
    rw [purge]
    split_ifs
    · rw [ih, deletePrimitive_models]
    · exact deletePrimitive_models s p

/-- The models after a call: those before, and what loading adds. -/
theorem step_models (s : Scene) (op : Op) {e : ℕ × Forest} (he : e ∈ (step s op).1.models) :
    e ∈ s.models ∨ ∀ p ∈ e.2.prims, Alive (step s op).1 p := by
  cases op with
  | load mats meshes root =>
    simp only [step, loadModel] at he ⊢
    split_ifs at he ⊢ with hc
    · simp only [List.mem_append, List.mem_singleton] at he
      rcases he with he | rfl
      · left; exact he
      · right
        intro p hp
        simp only [shift_prims] at hp
        obtain ⟨i, hi, rfl⟩ := List.mem_map.1 hp
        have hlt := hc.2 i hi
        refine ⟨⟨s.next + mats + meshes.length + i, s.next + mats + i, s.next + meshes[i]⟩, ?_, rfl⟩
        refine List.mem_append_right _ (List.mem_map.2 ⟨(meshes[i], i), ?_, rfl⟩)
        rw [List.mem_iff_getElem]
        exact ⟨i, by simpa using hlt, by simp⟩
    · left; exact he
  | instPrim p => simp only [step] at he; split_ifs at he <;> exact Or.inl he
  | instModel m => simp only [step] at he; split_ifs at he <;> exact Or.inl he
  | deletePrim p => left; simp only [step] at he; rwa [deletePrimitive_models] at he
  | deleteGeom g =>
    left
    simp only [step] at he
    split_ifs at he
    · simp only [purge_models] at he; exact he
    · rwa [purge_models] at he
    · exact he
  | deleteModel m =>
    left
    simp only [step] at he
    split_ifs at he
    · exact he
    · exact (List.mem_filter.1 he).1
    · exact he
  | setAll m b =>
    left
    simp only [step] at he
    split at he
    · exact he
    · rw [setAll_same] at he; exact he
  | find m mat => left; simp only [step] at he; split at he <;> exact he
  | render => left; exact he

theorem step_whole {s : Scene} (h : Whole s) (op : Op)
    (hc : ∀ p, Alive s p → ¬ Alive (step s op).1 p → ∀ e ∈ s.models, p ∉ e.2.prims) : Whole (step s op).1 := by
  intro e he p hp
  rcases step_models s op he with h1 | h1
  · by_contra ha
    exact hc p (h e h1 p hp) ha e h1 hp
  · exact h1 p hp

theorem run_whole {s : Scene} (h : Whole s) (ops : List Op) (hc : Careful s ops) : Whole (run s ops) := by
  induction ops generalizing s with
  | nil => exact h
  | cons op ops ih => exact ih (step_whole h op hc.1) hc.2

/-- **C127 (careful programs, partial)** A program that never deletes a primitive (or the geometry of a primitive) of a model
that still exists never reads a destroyed object: rendering succeeds, whatever is called next does not crash. Missing: the
programs that do, `C127_violated`. -/
theorem C127_careful_partial (ops : List Op) (hc : Careful {} ops) (op : Op) :
    (step (run {} ops) op).2 ≠ .crash ∧ (step (run {} ops) .render).2 = .done := by
  have hw : Whole (run {} ops) := run_whole (fun e he => by simp at he) ops hc
  have hr : Reach (run {} ops) := ⟨ops, rfl⟩
  have hb : ∀ m p, ¬ Broken (run {} ops) m p := by
    rintro m p ⟨f, hf, hp, ha⟩
    exact ha (hw _ hf p hp)
  refine ⟨?_, ?_⟩
  · have := C127_crash_iff hr op
    cases op with
    | render => intro h; obtain ⟨m, p, _, h1⟩ := this.1 h; exact hb m p h1
    | setAll m b => intro h; obtain ⟨p, h1⟩ := this.1 h; exact hb m p h1
    | find m mat => intro h; obtain ⟨p, h1⟩ := this h; exact hb m p h1
    | load _ _ _ => exact this
    | instPrim _ => exact this
    | instModel _ => exact this
    | deletePrim _ => exact this
    | deleteGeom _ => exact this
    | deleteModel _ => exact this
  · rcases render_values (run {} ops) with h | h
    · exact h
    · obtain ⟨m, p, _, h1⟩ := (render_crash hr.inv).1 h
      exact absurd h1 (hb m p)

/-- The property: no call of any program reads a destroyed object. -/
def C127_full : Prop := ∀ ops op, (step (run {} ops) op).2 ≠ .crash

/-- A model with one mesh. -/
def one : Forest := .frame (.inst 0 .nil) .nil

/-- Load a model, put it in the scene, delete its primitive. -/
def program : List Op := [.load 1 [0] one, .instModel 3, .deletePrim 2]

theorem program_run : (run {} program).models = [(3, .frame (.inst 2 .nil) .nil)] ∧ (run {} program).insts = [.model 3] ∧
    (run {} program).prims = [] := by
  simp [program, run, step, loadModel, one, Forest.prims, Forest.shift, deletePrimitive, Scene.at]

/-- **C127 is violated**: the primitive of a model in the scene can be deleted (the check looks at the scene graph only); rendering
then reads the destroyed primitive. -/
theorem C127_violated : ¬ C127_full := by
  intro h
  refine h program .render ?_
  have hr : Reach (run {} program) := ⟨program, rfl⟩
  have := (C127_crash_iff hr .render).2
  refine this ⟨3, 2, ?_, .frame (.inst 2 .nil) .nil, ?_, ?_, ?_⟩
  · rw [program_run.2.1]; simp
  · rw [program_run.1]; simp
  · simp [Forest.prims]
  · rintro ⟨q, hq, _⟩
    rw [program_run.2.2] at hq; simp at hq

theorem purge_prims (s : Scene) (ps : List ℕ) (hd : (purge s ps).2 = .done) :
    (purge s ps).1.prims = s.prims.filter fun q => q.id ∉ ps := by
  induction ps generalizing s with
  | nil => simp [purge]
  | cons p ps ih =>
    rw [purge] at hd ⊢
    split_ifs at hd ⊢ with h1
    · rw [ih _ hd]
      unfold deletePrimitive at h1 ⊢
      split_ifs at h1 ⊢
      simp only [List.filter_filter]
      refine List.filter_congr fun q _ => ?_
      simp [Bool.and_comm]
    · exact absurd hd h1

/-- **C127 (deleting a geometry)** A geometry goes together with the primitives made from it and with nothing else: afterwards
exactly the primitives of other geometries are left. -/
theorem C127_delete_geometry {s : Scene} (h : Reach s) (g : ℕ) (hd : (step s (.deleteGeom g)).2 = .done) (q : Prim) :
    q ∈ (step s (.deleteGeom g)).1.prims ↔ q ∈ s.prims ∧ q.geom ≠ g := by
  simp only [step] at hd ⊢
  split_ifs at hd ⊢ with h1 h2
  · show q ∈ (purge s _).1.prims ↔ _
    rw [purge_prims _ _ h2]
    simp only [List.mem_filter, List.mem_map, decide_eq_true_eq, not_exists, not_and]
    constructor
    · rintro ⟨hq, hn⟩
      exact ⟨hq, fun hg => hn q ⟨hq, hg⟩ rfl⟩
    · rintro ⟨hq, hn⟩
      refine ⟨hq, fun r ⟨hr, hg⟩ e => hn ?_⟩
      rw [← inj_of_nodup h.inv.primNodup hr hq e, hg]
  · exact absurd hd h2

/-! ### instances of the hypotheses -/

example : (step (run {} [.load 2 [0, 0, 1] (.inst 0 .nil)]) (.deleteGeom 3)).2 = .done := by
  simp [run, step, loadModel, Forest.prims, Forest.shift, purge, deletePrimitive, Scene.at]
  rw [if_pos ⟨1, by decide⟩]

/-- Two meshes in a graph of depth two, sharing a material; a third with another. -/
def house : Forest := .inst 0 (.frame (.inst 1 (.inst 0 .nil)) (.inst 2 .nil))

example : dfs [.frame house] = [2, 0, 1, 0] := by simp [dfs, house, Forest.nodes]

example : (step (run {} [.load 2 [0, 0, 1] house]) (.setAll 8 7)).2 = .done := by
  simp [run, step, loadModel, house, Forest.prims, Forest.shift, setAll, Scene.at, dfs, Forest.nodes]

example : Uses (run {} [.load 2 [0, 0, 1] house]) (house.shift 5) 1 ∧
    ¬ Uses (run {} [.load 3 [0, 0, 1] house]) (house.shift 5) 2 := by
  simp only [run, step, loadModel, house, Forest.prims, Forest.shift, Uses]
  refine ⟨⟨7, by decide, ⟨7, 4, 1⟩, by decide, rfl, rfl⟩, ?_⟩
  rintro ⟨p, _, q, hq, _, e⟩
  have : ∀ q ∈ ([⟨6, 3, 0⟩, ⟨7, 4, 0⟩, ⟨8, 5, 1⟩] : List Prim), q.mat ≠ 2 := by decide
  exact this q hq e

example : Careful {} [.load 2 [0, 0, 1] house, .instModel 8, .deletePrim 77, .setAll 8 7, .deleteModel 8] := by
  simp [Careful, run, step, loadModel, house, Forest.prims, Forest.shift, setAll, Scene.at, dfs, Forest.nodes, deletePrimitive,
    Alive]
  omega

/-- Deleting the model first makes deleting its primitives harmless. -/
example : Careful {} [.load 1 [0] one, .deleteModel 3, .deletePrim 2, .render] := by
  simp [Careful, step, loadModel, one, Forest.prims, Forest.shift, Scene.at, deletePrimitive, Alive]

end Huira.AssetGraph
