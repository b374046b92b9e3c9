import Verif.Loader.Tree
import Verif.Loader.Meshes
import Verif.Loader.Described
/-!
# C111: loading a model as a whole

`load` (`model_loader.ipp` 32-112) put together from the parts modelled in `Model.lean` and `MaterialModel.lean`.
-/
set_option linter.unusedSimpArgs false
set_option linter.unusedVariables false
namespace Huira.Loader
noncomputable section
open Material Xform

variable {n : ℕ}

/-- What Assimp returns for a file it can read: `aiScene`. -/
structure AiScene where
  materials : List AiMaterial
  meshes : List AiMesh
  root : AiNode

/-- What loading one material registers: the material, then its textures (the three lists grow). -/
def materialEvents (env : Env n) (a : AiMaterial) (s : St n) : List Ev :=
  let t := (processMaterial env a s).1
  .material :: List.replicate ((t.spec.length - s.spec.length) + (t.mono.length - s.mono.length) + (t.vec.length - s.vec.length)) .texture

/-- What `process_materials_` registers after the reflectance model (`model_loader.ipp` 365-478). -/
def materialsEvents (env : Env n) : List AiMaterial → St n → List Ev
  | [], _ => []
  | a :: as, s => materialEvents env a s ++ materialsEvents env as (processMaterial env a s).1

/-- A loaded model: its materials, its meshes with their material numbers, and the tree of its root node. -/
structure Loaded (n : ℕ) where
  materials : List (Mat n)
  meshes : List (Mesh.Mesh n × Nat)
  prims : List Nat
  tree : Collect.Node Transform

/-- `ModelLoader::load` (`model_loader.ipp` 32-112).  `found` is `fs::exists`, `parsed` what Assimp returns (`none`: null, incomplete
or without root), `s` the textures of the scene, `firstPrim` the number of the next primitive. -/
def load (env : Env n) (found : Bool) (parsed : Option AiScene) (s : St n) (firstPrim : Nat) : Out (Loaded n) :=
  if !found then .throw
  else (Out.ofOption parsed).bind fun sc =>
    (Out.emit .model).bind fun _ =>
    (Out.emit .bsdf).bind fun _ =>
    (⟨materialsEvents env sc.materials s, some (processMaterials env sc.materials s).2⟩ : Out (List (Mat n))).bind fun mats =>
    (processMeshes env.conv mats.length sc.meshes).bind fun meshes =>
    (processRoot ((List.range meshes.length).map (firstPrim + ·)) sc.root).bind fun tree =>
    .pure ⟨mats, meshes, (List.range meshes.length).map (firstPrim + ·), tree⟩

/-! ## Specification -/

mutual
/-- The nodes of a tree. -/
def nodeCount : AiNode → Nat
  | .mk _ _ cs => 1 + nodeCountList cs
/-- The nodes of a list of trees. -/
def nodeCountList : List AiNode → Nat
  | [] => 0
  | c :: cs => nodeCount c + nodeCountList cs
end

/-- The nodes below the root. -/
def belowRoot : AiNode → Nat
  | .mk _ _ cs => nodeCountList cs

/-- C111 in full: loading either succeeds or leaves nothing in the scene. -/
def C111_full : Prop := ∀ (env : Env 1) (found : Bool) (parsed : Option AiScene) (s : St 1) (k : Nat),
  (load env found parsed s k).val = none → (load env found parsed s k).added = []

/-- A file that meets the conditions of C108, C109 and C110. -/
structure GoodFile (env : Env n) (sc : AiScene) : Prop where
  formats : NoAlphaFormats env
  materials : Plain env sc.materials
  meshes : ∀ a ∈ sc.meshes, Wf a ∧ (∀ t ∈ triangles a, t.1 < a.numVertices ∧ t.2.1 < a.numVertices ∧ t.2.2 < a.numVertices) ∧
    3 * (triangles a).length ≤ 2 ^ 32 ∧ a.materialIndex < sc.materials.length
  tree : Rigid sc.root
  places : ∀ x ∈ placed sc.root, x.1 < sc.meshes.length

/-! ## Proofs -/

theorem bind_none {α β : Type} {a : Out α} (h : a.val = none) (f : α → Out β) : a.bind f = ⟨a.added, none⟩ := by simp [Out.bind, h]

theorem bind_some {α β : Type} {a : Out α} {x : α} (h : a.val = some x) (f : α → Out β) :
    a.bind f = ⟨a.added ++ (f x).added, (f x).val⟩ := by simp [Out.bind, h]

theorem bind_prefix {α β : Type} (a : Out α) (f : α → Out β) : a.added <+: (a.bind f).added := by
  unfold Out.bind; cases a.val <;> simp

/-- C111: a file that is missing or that Assimp refuses leaves the scene as it was. -/
theorem C111_early_partial (env : Env n) (found : Bool) (parsed : Option AiScene) (s : St n) (k : Nat) (h : found = false ∨ parsed = none) :
    load env found parsed s k = ⟨[], none⟩ := by
  unfold load
  rcases h with rfl | rfl
  · rfl
  · cases found <;> rfl

/-- C111 fails: every other failure leaves the model, the reflectance model and every material of the file in the scene.  So a failed
load leaves the scene unchanged exactly when the file was missing or Assimp refused it. -/
theorem C111_leftover (env : Env n) (sc : AiScene) (s : St n) (k : Nat) :
    [Ev.model, .bsdf] ++ materialsEvents env sc.materials s <+: (load env true (some sc) s k).added ∧
    ((materialsEvents env sc.materials s).count .material = sc.materials.length) ∧
    (∀ found parsed, (load env found parsed s k).added = [] ↔ found = false ∨ parsed = none) := by
  have key : ∀ sc : AiScene, [Ev.model, .bsdf] ++ materialsEvents env sc.materials s <+: (load env true (some sc) s k).added := by
    intro sc
    unfold load
    simp only [Bool.not_true, Bool.false_eq_true, if_false]
    rw [bind_some (x := sc) rfl, bind_some (x := ()) rfl, bind_some (x := ()) rfl]
    simp only [Out.ofOption, Out.emit, List.nil_append, List.cons_append, List.prefix_cons_inj]
    exact bind_prefix (⟨materialsEvents env sc.materials s, some (processMaterials env sc.materials s).2⟩ : Out (List (Mat n))) _
  refine ⟨key sc, ?_, ?_⟩
  · have : ∀ (l : List AiMaterial) (s : St n), (materialsEvents env l s).count .material = l.length := by
      intro l
      induction l with
      | nil => intro _; rfl
      | cons a as ih =>
        intro s
        rw [materialsEvents, List.count_append, ih]
        simp [materialEvents, List.count_cons, List.count_replicate]
        omega
    exact this _ _
  · intro found parsed
    constructor
    · intro h
      cases found with
      | false => exact Or.inl rfl
      | true =>
        cases parsed with
        | none => exact Or.inr rfl
        | some sc =>
          have := key sc
          rw [h] at this
          simp at this
    · intro h; rw [C111_early_partial env found parsed s k h]

theorem meshes_ok (conv : Rgb → (Fin n → ℝ)) (materials : Nat) : ∀ l : List AiMesh,
    (∀ a ∈ l, Wf a ∧ (∀ t ∈ triangles a, t.1 < a.numVertices ∧ t.2.1 < a.numVertices ∧ t.2.2 < a.numVertices) ∧
      3 * (triangles a).length ≤ 2 ^ 32 ∧ a.materialIndex < materials) →
    ∃ ms, (processMeshes conv materials l).val = some ms ∧
      (processMeshes conv materials l).added = l.flatMap (fun _ => [Ev.geometry, .primitive]) ∧
      List.Forall₂ (fun a p => p.2 = a.materialIndex ∧ (convertMesh conv materials a).val = some p) l ms := by
  intro l
  induction l with
  | nil => intro _; exact ⟨[], rfl, rfl, .nil⟩
  | cons a l ih =>
    intro h
    obtain ⟨hw, hi, hs, hm⟩ := h a (by simp)
    obtain ⟨mesh, e, -⟩ := C109_mesh conv materials a hw hi hs hm
    obtain ⟨ms, e1, e2, e3⟩ := ih (fun x hx => h x (by simp [hx]))
    refine ⟨(mesh, a.materialIndex) :: ms, ?_, ?_, .cons ⟨rfl, by rw [e]⟩ e3⟩
    · rw [processMeshes, e, bind_some (x := (mesh, a.materialIndex)) rfl, bind_some e1]; rfl
    · rw [processMeshes, e, bind_some (x := (mesh, a.materialIndex)) rfl, bind_some e1, e2]
      simp [Out.pure]

theorem instances_added (prims : List Nat) : ∀ is : List Nat, (instances prims is).added = []
  | [] => rfl
  | i :: is => by
    rw [instances]
    cases prims[i]? with
    | none => rfl
    | some p =>
      simp only []
      cases h : (instances prims is).val with
      | none => rw [bind_none h]; exact instances_added prims is
      | some x => rw [bind_some h, instances_added prims is]; rfl

mutual
theorem node_added (prims : List Nat) : ∀ (nd : AiNode) t, (processNode prims nd).val = some t →
    (processNode prims nd).added = List.replicate (nodeCount nd) .node
  | .mk m meshes children, t, h => by
    rw [processNode] at h ⊢
    cases hc : convertTransform m with
    | none => simp [hc, Out.ofOption, Out.bind] at h
    | some tr =>
      rw [hc] at h
      rw [bind_some (a := Out.ofOption (some tr)) (x := tr) rfl, bind_some (x := ()) rfl] at h ⊢
      cases hi : (instances prims meshes).val with
      | none => rw [bind_none hi] at h; cases h
      | some is =>
        rw [bind_some hi] at h ⊢
        cases hl : (processList prims children).val with
        | none => rw [bind_none hl] at h; cases h
        | some cs =>
          rw [bind_some hl, list_added prims children cs hl, instances_added]
          rw [nodeCount, List.replicate_add]
          simp [Out.ofOption, Out.emit, Out.pure]
theorem list_added (prims : List Nat) : ∀ (ns : List AiNode) ts, (processList prims ns).val = some ts →
    (processList prims ns).added = List.replicate (nodeCountList ns) .node
  | [], ts, h => by rw [processList]; rfl
  | nd :: ns, ts, h => by
    rw [processList] at h ⊢
    cases hn : (processNode prims nd).val with
    | none => rw [bind_none hn] at h; cases h
    | some c =>
      rw [bind_some hn] at h ⊢
      cases hl : (processList prims ns).val with
      | none => rw [bind_none hl] at h; cases h
      | some cs =>
        rw [bind_some hl, node_added prims nd c hn, list_added prims ns cs hl, nodeCountList, List.replicate_add]
        simp [Out.pure]
end

theorem root_added (prims : List Nat) (root : AiNode) (t) (h : (processRoot prims root).val = some t) :
    (processRoot prims root).added = List.replicate (belowRoot root) .node := by
  obtain ⟨m, meshes, children⟩ := root
  rw [processRoot] at h ⊢
  cases hc : convertTransform m with
  | none => simp [hc, Out.ofOption, Out.bind] at h
  | some tr =>
    rw [hc] at h
    rw [bind_some (a := Out.ofOption (some tr)) (x := tr) rfl] at h ⊢
    cases hl : (processList prims children).val with
    | none => rw [bind_none hl] at h; cases h
    | some cs =>
      rw [bind_some hl, list_added prims children cs hl]
      simp [Out.ofOption, Out.pure, belowRoot]

/-- C111: a file that meets the conditions of C108 to C110 loads, whatever is in the scene.  The scene gains one model, one reflectance
model, one material per material of the file (each looking as described), the textures they need, one geometry and one primitive per
mesh (each the mesh of the file, C109, with the material it names), and one node per node below the root; and an instance of the model
shows the meshes where the file puts them (C108). -/
theorem C111_load_partial (env : Env n) (sc : AiScene) (spec : List (Img (Fin n → ℝ))) (mono : List (Img ℝ)) (vec : List (Img V3)) (k : Nat)
    (h : GoodFile env sc) : ∃ r : Loaded n,
    load env true (some sc) (fresh spec mono vec) k = ⟨[Ev.model, .bsdf] ++ materialsEvents env sc.materials (fresh spec mono vec) ++
      sc.meshes.flatMap (fun _ => [Ev.geometry, .primitive]) ++ List.replicate (belowRoot sc.root) .node, some r⟩ ∧
    List.Forall₂ (Looks env) sc.materials r.materials ∧
    List.Forall₂ (fun a p => p.2 = a.materialIndex ∧ (convertMesh env.conv sc.materials.length a).val = some p) sc.meshes r.meshes ∧
    r.prims = (List.range sc.meshes.length).map (k + ·) ∧ Faithful r.prims sc.root r.tree := by
  obtain ⟨hl, hm⟩ := C110_materials_partial env h.formats sc.materials h.materials spec mono vec
  obtain ⟨ms, e1, e2, e3⟩ := meshes_ok env.conv sc.materials.length sc.meshes h.meshes
  have hlen : ms.length = sc.meshes.length := e3.length_eq.symm
  obtain ⟨tree, t1, t2⟩ := C108_model_partial ((List.range ms.length).map (k + ·)) sc.root h.tree (by simpa [hlen] using h.places)
  refine ⟨⟨(processMaterials env sc.materials (fresh spec mono vec)).2, ms, (List.range ms.length).map (k + ·), tree⟩, ?_, ?_, e3, by rw [hlen], t2⟩
  · unfold load
    simp only [Bool.not_true, Bool.false_eq_true, if_false]
    rw [bind_some (x := sc) rfl, bind_some (x := ()) rfl, bind_some (x := ()) rfl,
      bind_some (x := (processMaterials env sc.materials (fresh spec mono vec)).2) rfl, hl, bind_some e1, bind_some t1, e2,
      root_added _ _ _ t1]
    simp [Out.ofOption, Out.emit, Out.pure]
  · rw [List.forall₂_iff_get]
    refine ⟨hl.symm, fun i h1 h2 => ?_⟩
    obtain ⟨m, hm1, hm2⟩ := hm i (sc.materials.get ⟨i, h1⟩) (by simp)
    have : (processMaterials env sc.materials (fresh spec mono vec)).2.get ⟨i, h2⟩ = m := by
      rw [List.getElem?_eq_getElem h2] at hm1
      simpa using hm1
    rw [this]; exact hm2

/-- A file with two materials sharing a picture, a mesh, and a node tree of two levels. -/
def exScene : AiScene := ⟨[exMaterial .baseColor, exMaterial .baseColor], [exMesh 1, exMesh 0], exFile⟩

example : GoodFile (exEnv false) exScene where
  formats := ex_formats _
  materials := ex_plain
  meshes := by
    intro a ha
    simp only [exScene, List.mem_cons, List.not_mem_nil, or_false] at ha
    rcases ha with rfl | rfl
    · obtain ⟨w, hi, ht⟩ := exMesh_wf 1
      exact ⟨w, hi, by rw [ht]; norm_num, by simp [exScene, exMesh]⟩
    · obtain ⟨w, hi, ht⟩ := exMesh_wf 0
      exact ⟨w, hi, by rw [ht]; norm_num, by simp [exScene, exMesh]⟩
  tree := exFile_ok.1
  places := by simpa [exScene] using exFile_ok.2

theorem C111_violated : ¬ C111_full := by
  intro h
  have hload : (load (exEnv false) true (some ⟨[], [exMesh 0], .mk ⟨1, 0, 0, 0, 0, 1, 0, 0, 0, 0, 1, 0⟩ [0] []⟩) (fresh [] [] []) 0).val = none := by
    obtain ⟨w, hi, ht⟩ := exMesh_wf 0
    unfold load
    simp only [Bool.not_true, Bool.false_eq_true, if_false]
    rw [bind_some (x := _) rfl, bind_some (x := ()) rfl, bind_some (x := ()) rfl, bind_some (x := []) rfl]
    rw [show processMeshes (exEnv false).conv ([] : List (Mat 1)).length [exMesh 0] = ⟨[.geometry], none⟩ by
      rw [processMeshes, C109_no_material _ _ (exMesh 0) w hi (by rw [ht]; norm_num) (by simp [exMesh])]; rfl]
    rfl
  have := h _ _ _ _ _ hload
  rw [(C111_leftover (exEnv false) ⟨[], [], exFile⟩ (fresh [] [] []) 0).2.2] at this
  simp at this

end
end Huira.Loader
