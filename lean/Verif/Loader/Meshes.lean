import Verif.Loader.Model
import Verif.Geometry.MeshProps
/-!
# C109: the meshes of a loaded file
-/
set_option linter.unusedSimpArgs false
set_option linter.unusedVariables false
namespace Huira.Loader
open V3 Mesh
variable {n : ℕ}

/-! ## Specification -/

/-- Assimp's contract: every array that is present has one entry per vertex. -/
structure Wf (a : AiMesh) : Prop where
  vertices : a.vertices.length = a.numVertices
  normals : ∀ l, a.normals = some l → l.length = a.numVertices
  texCoords : ∀ l, a.texCoords = some l → l.length = a.numVertices
  colors : ∀ l, a.colors = some l → l.length = a.numVertices
  tangents : ∀ l, a.tangents = some l → l.1.length = a.numVertices ∧ l.2.length = a.numVertices

/-- The triangles of the file, in order, with their corners in order; points and lines are left out. -/
def triangles (a : AiMesh) : List (Nat × Nat × Nat) := a.faces.filterMap fun f => match f with
  | [i, j, k] => some (i, j, k)
  | _ => none

/-- The file's data of vertex `i`. -/
def AiMesh.pos (a : AiMesh) (i : Nat) : V3 := a.vertices.getD i zero
/-- Normal of vertex `i`; the y axis when the file has none. -/
def AiMesh.nrm (a : AiMesh) (i : Nat) : V3 := match a.normals with | some l => l.getD i zero | none => ⟨0, 1, 0⟩
/-- Texture coordinates of vertex `i`, the second counted from the other edge; zero when the file has none. -/
noncomputable def AiMesh.tex (a : AiMesh) (i : Nat) : ℝ × ℝ := match a.texCoords with
  | some l => ((l.getD i zero).x, 1 - (l.getD i zero).y)
  | none => (0, 0)
/-- Colour of vertex `i`, converted; white when the file has none. -/
noncomputable def AiMesh.col (conv : Rgb → (Fin n → ℝ)) (a : AiMesh) (i : Nat) : Fin n → ℝ := match a.colors with
  | some l => conv (l.getD i ((0, 0, 0), 0)).1
  | none => fun _ => 1

/-- **C109 in full**: every mesh with valid vertex indices is accepted; one whose material does not exist gets the default. -/
def C109_full : Prop := ∀ (conv : Rgb → (Fin 1 → ℝ)) (materials : Nat) (a : AiMesh), Wf a →
  (∀ t ∈ triangles a, t.1 < a.numVertices ∧ t.2.1 < a.numVertices ∧ t.2.2 < a.numVertices) →
  (convertMesh conv materials a).val.isSome

/-! ## Proofs -/

theorem mapM_range {α : Type} (f : Nat → Option α) (g : Nat → α) (m : Nat) (h : ∀ i < m, f i = some (g i)) :
    (List.range m).mapM f = some ((List.range m).map g) := by
  have : ∀ l : List Nat, (∀ i ∈ l, f i = some (g i)) → l.mapM f = some (l.map g) := by
    intro l
    induction l with
    | nil => intro _; simp
    | cons x l ih =>
      intro hl
      rw [List.mapM_cons, hl x (by simp), ih (fun i hi => hl i (List.mem_cons_of_mem _ hi))]
      rfl
  exact this _ (fun i hi => h i (List.mem_range.1 hi))

theorem getD_of {α : Type} {l : List α} {i m : Nat} {d : α} (h : l.length = m) (hi : i < m) : l[i]? = some (l.getD i d) := by
  have : i < l.length := by omega
  simp [List.getD, this]

theorem vertex_eq (conv : Rgb → (Fin n → ℝ)) {a : AiMesh} (h : Wf a) {i : Nat} (hi : i < a.numVertices) :
    convertVertex conv a i = some ⟨a.pos i, a.col conv i, a.nrm i, a.tex i⟩ := by
  have e1 : convertNormal a i = some (a.nrm i) := by
    unfold convertNormal AiMesh.nrm
    cases hn : a.normals with
    | none => rfl
    | some l => exact getD_of (h.normals l hn) hi
  have e2 : convertTexCoord a i = some (a.tex i) := by
    unfold convertTexCoord AiMesh.tex
    cases hn : a.texCoords with
    | none => rfl
    | some l => simp only [getD_of (h.texCoords l hn) hi (d := zero), Option.map_some]
  have e3 : convertColor conv a i = some (a.col conv i) := by
    unfold convertColor AiMesh.col
    cases hn : a.colors with
    | none => rfl
    | some l => simp only [getD_of (h.colors l hn) hi (d := ((0, 0, 0), 0)), Option.map_some]
  unfold convertVertex
  rw [getD_of h.vertices hi (d := zero), e1, e2, e3]
  rfl

/-- The file's tangents, if any. -/
def AiMesh.tan (a : AiMesh) (i : Nat) : Tan := match a.tangents with
  | some (t, b) => ⟨t.getD i zero, b.getD i zero⟩
  | none => ⟨zero, zero⟩

theorem tangent_eq {a : AiMesh} (h : Wf a) {i : Nat} (hi : i < a.numVertices) :
    convertTangent a i = some (if a.tangents = none then [] else [a.tan i]) := by
  unfold convertTangent AiMesh.tan
  cases hn : a.tangents with
  | none => rfl
  | some l =>
    obtain ⟨h1, h2⟩ := h.tangents l hn
    obtain ⟨t, b⟩ := l
    simp only [getD_of h1 hi (d := zero), getD_of h2 hi (d := zero)]
    rfl

theorem indices_eq (a : AiMesh) : a.faces.flatMap faceIndices = (triangles a).flatMap fun t => [t.1, t.2.1, t.2.2] := by
  unfold triangles
  induction a.faces with
  | nil => rfl
  | cons f l ih =>
    rw [List.flatMap_cons, ih, List.filterMap_cons]
    rcases f with _ | ⟨i, _ | ⟨j, _ | ⟨k, _ | ⟨m, f⟩⟩⟩⟩ <;> simp [faceIndices]

theorem triple_getElem (l : List (Nat × Nat × Nat)) : ∀ k : Nat, ∀ t, l[k]? = some t →
    (l.flatMap fun t => [t.1, t.2.1, t.2.2])[3 * k]? = some t.1 ∧ (l.flatMap fun t => [t.1, t.2.1, t.2.2])[3 * k + 1]? = some t.2.1 ∧
    (l.flatMap fun t => [t.1, t.2.1, t.2.2])[3 * k + 2]? = some t.2.2 := by
  induction l with
  | nil => intro k t h; simp at h
  | cons x l ih =>
    intro k t h
    cases k with
    | zero => simp at h; subst h; simp
    | succ k =>
      have := ih k t (by simpa using h)
      rw [List.flatMap_cons, show 3 * (k + 1) = 3 * k + 3 by ring]
      simpa using this

theorem triple_length (l : List (Nat × Nat × Nat)) : (l.flatMap fun t => [t.1, t.2.1, t.2.2]).length = 3 * l.length := by
  induction l with
  | nil => rfl
  | cons x l ih => rw [List.flatMap_cons, List.length_append, ih]; simp; ring

/-- The mesh the file describes. -/
noncomputable def fileMesh (conv : Rgb → (Fin n → ℝ)) (a : AiMesh) : Mesh.Mesh n :=
  ⟨a.faces.flatMap faceIndices, (List.range a.numVertices).map fun i => ⟨a.pos i, a.col conv i, a.nrm i, a.tex i⟩,
   ((List.range a.numVertices).map fun i => if a.tangents = none then [] else [a.tan i]).flatten⟩

theorem buffers_eq (conv : Rgb → (Fin n → ℝ)) {a : AiMesh} (h : Wf a) :
    buffers conv a = some ((fileMesh conv a).idx, (fileMesh conv a).vtx, (fileMesh conv a).tan) := by
  unfold buffers
  rw [mapM_range _ _ _ (fun i hi => vertex_eq conv h hi), mapM_range _ _ _ (fun i hi => tangent_eq h hi)]
  rfl

theorem tan_list (a : AiMesh) : ((List.range a.numVertices).map fun i => if a.tangents = none then [] else [a.tan i]).flatten =
    if a.tangents = none then [] else (List.range a.numVertices).map a.tan := by
  split_ifs with h
  · simp
  · induction List.range a.numVertices with
    | nil => rfl
    | cons x l ih => simp [ih]

/-- **C109.** A mesh that Assimp delivers (every array of full length) with valid corner indices and an existing material is loaded
with that material; it has as many triangles as the file has, in the file's order and orientation, and a hit on triangle `k` at any
barycentric point reports position, normal, texture coordinates, colour and tangents interpolated from the file's data of that
triangle's corners. -/
theorem C109_mesh (conv : Rgb → (Fin n → ℝ)) (materials : Nat) (a : AiMesh) (h : Wf a)
    (hi : ∀ t ∈ triangles a, t.1 < a.numVertices ∧ t.2.1 < a.numVertices ∧ t.2.2 < a.numVertices)
    (hs : 3 * (triangles a).length ≤ 2 ^ 32) (hm : a.materialIndex < materials) :
    ∃ mesh : Mesh.Mesh n, convertMesh conv materials a = ⟨[.geometry, .primitive], some (mesh, a.materialIndex)⟩ ∧
      mesh.triangleCount = (triangles a).length ∧
      ∀ k i j l, (triangles a)[(k : ℕ)]? = some (i, j, l) → ∀ u v, ∃ s, mesh.surface k u v = some s ∧
        s.position = mix3 (1 - u - v) u v (a.pos i) (a.pos j) (a.pos l) ∧
        s.normal = mix3 (1 - u - v) u v (a.nrm i) (a.nrm j) (a.nrm l) ∧
        s.uv = mix2 (1 - u - v) u v (a.tex i) (a.tex j) (a.tex l) ∧
        (∀ c, s.albedo c = (1 - u - v) * a.col conv i c + u * a.col conv j c + v * a.col conv l c) ∧
        (a.tangents = none → s.tangent = zero ∧ s.bitangent = zero) ∧
        (∀ t b, a.tangents = some (t, b) →
          s.tangent = mix3 (1 - u - v) u v (t.getD i zero) (t.getD j zero) (t.getD l zero) ∧
          s.bitangent = mix3 (1 - u - v) u v (b.getD i zero) (b.getD j zero) (b.getD l zero)) := by
  have hw : WellFormed (fileMesh conv a) := by
    constructor
    · intro i hi'
      simp only [fileMesh, indices_eq, List.mem_flatMap, List.length_map, List.length_range] at hi' ⊢
      obtain ⟨t, ht, hit⟩ := hi'
      obtain ⟨h1, h2, h3⟩ := hi t ht
      simp only [List.mem_cons, List.not_mem_nil, or_false] at hit
      rcases hit with rfl | rfl | rfl <;> assumption
    · simp only [fileMesh, tan_list]
      split_ifs
      · exact Or.inl rfl
      · right; simp
  refine ⟨fileMesh conv a, ?_, ?_, ?_⟩
  · have := ((C68_accept (fileMesh conv a).idx (fileMesh conv a).vtx (fileMesh conv a).tan).2 (fileMesh conv a)).2 ⟨rfl, hw⟩
    unfold convertMesh
    rw [buffers_eq conv h]
    simp only [Out.ofOption, Out.bind, this, Out.emit, hm, if_true, Out.pure, List.nil_append, List.append_nil, List.cons_append]
  · simp only [Mesh.triangleCount, fileMesh, indices_eq, triple_length]; omega
  · intro k i j l ht u v
    have hk : k < (triangles a).length := (List.getElem?_eq_some_iff.1 ht).1
    have hcount : k < (fileMesh conv a).triangleCount := by
      simp only [Mesh.triangleCount, fileMesh, indices_eq, triple_length]; omega
    have hlen : (fileMesh conv a).idx.length ≤ 2 ^ 32 := by simp only [fileMesh, indices_eq, triple_length]; exact hs
    obtain ⟨x, y, z, s, hc, h1, -, h2, h3, h4, h5, h6, h7⟩ := C68_surface_partial (fileMesh conv a) hw hlen k hcount u v
    obtain ⟨t0, t1, t2⟩ := triple_getElem (triangles a) k _ ht
    obtain ⟨b0, b1, b2⟩ := hi _ (List.mem_of_getElem? ht)
    simp only at t0 t1 t2 b0 b1 b2
    have hv : ∀ i < a.numVertices, (fileMesh conv a).vtx[i]? = some ⟨a.pos i, a.col conv i, a.nrm i, a.tex i⟩ := by
      intro i hi'; simp [fileMesh, hi']
    have i0 : (fileMesh conv a).idx[3 * k]? = some i := by simp only [fileMesh, indices_eq]; exact t0
    have i1 : (fileMesh conv a).idx[3 * k + 1]? = some j := by simp only [fileMesh, indices_eq]; exact t1
    have i2 : (fileMesh conv a).idx[3 * k + 2]? = some l := by simp only [fileMesh, indices_eq]; exact t2
    have hc' : Corners (fileMesh conv a) k ⟨a.pos i, a.col conv i, a.nrm i, a.tex i⟩ ⟨a.pos j, a.col conv j, a.nrm j, a.tex j⟩
        ⟨a.pos l, a.col conv l, a.nrm l, a.tex l⟩ := ⟨i, j, l, i0, i1, i2, hv i b0, hv j b1, hv l b2⟩
    obtain ⟨rfl, rfl, rfl⟩ := corners_unique hc' hc
    refine ⟨s, h1, h2, h3, h4, h5, ?_, ?_⟩
    · intro hn
      exact h6 (by simp only [fileMesh, tan_list]; rw [if_pos hn])
    · intro t b hn
      have htan : (fileMesh conv a).tan = (List.range a.numVertices).map a.tan := by
        simp only [fileMesh, tan_list]; rw [if_neg (by rw [hn]; simp)]
      have hne : (fileMesh conv a).tan ≠ [] := by
        rw [htan]; intro e
        have := congrArg List.length e
        simp at this; omega
      obtain ⟨i', j', l', ta, tb, tc, e0, e1, e2, f0, f1, f2, g1, g2⟩ := h7 hne
      rw [i0, Option.some.injEq] at e0
      rw [i1, Option.some.injEq] at e1
      rw [i2, Option.some.injEq] at e2
      subst e0 e1 e2
      rw [htan] at f0 f1 f2
      have ft : ∀ q < a.numVertices, ((List.range a.numVertices).map a.tan)[q]? = some ⟨t.getD q zero, b.getD q zero⟩ := by
        intro q hq; simp [hq, AiMesh.tan, hn]
      rw [ft _ b0, Option.some.injEq] at f0
      rw [ft _ b1, Option.some.injEq] at f1
      rw [ft _ b2, Option.some.injEq] at f2
      subst f0 f1 f2
      exact ⟨g1, g2⟩

/-- **C109, bad corner indices are refused**: a triangle that names a vertex the mesh does not have makes the load throw, before
anything is registered for that mesh. -/
theorem C109_bad_index (conv : Rgb → (Fin n → ℝ)) (materials : Nat) (a : AiMesh) (h : Wf a) (t : Nat × Nat × Nat) (ht : t ∈ triangles a)
    (hb : a.numVertices ≤ t.1 ∨ a.numVertices ≤ t.2.1 ∨ a.numVertices ≤ t.2.2) : convertMesh conv materials a = ⟨[], none⟩ := by
  have : Mesh.makeTan (fileMesh conv a).idx (fileMesh conv a).vtx (fileMesh conv a).tan = none := by
    by_contra hc
    obtain ⟨m, hm⟩ := Option.ne_none_iff_exists'.1 hc
    obtain ⟨rfl, hw⟩ := ((C68_accept _ _ _).2 m).1 hm
    have := hw.1
    have hmem : ∀ x ∈ [t.1, t.2.1, t.2.2], x < a.numVertices := by
      intro x hx
      have := hw.1 x (by simp only [fileMesh, indices_eq, List.mem_flatMap]; exact ⟨t, ht, hx⟩)
      simpa [fileMesh] using this
    have h0 := hmem t.1 (by simp)
    have h1 := hmem t.2.1 (by simp)
    have h2 := hmem t.2.2 (by simp)
    omega
  unfold convertMesh
  rw [buffers_eq conv h]
  simp only [Out.ofOption, Out.bind, this, List.nil_append]

/-- **C109, missing material.** The warning promises the default material; instead the load throws, with the geometry left behind in
the scene. -/
theorem C109_no_material (conv : Rgb → (Fin n → ℝ)) (materials : Nat) (a : AiMesh) (h : Wf a)
    (hi : ∀ t ∈ triangles a, t.1 < a.numVertices ∧ t.2.1 < a.numVertices ∧ t.2.2 < a.numVertices)
    (hs : 3 * (triangles a).length ≤ 2 ^ 32) (hm : materials ≤ a.materialIndex) : convertMesh conv materials a = ⟨[.geometry], none⟩ := by
  obtain ⟨mesh, hc, -⟩ := C109_mesh conv (a.materialIndex + 1) a h hi hs (by omega)
  unfold convertMesh at hc ⊢
  rw [buffers_eq conv h] at hc ⊢
  simp only [Out.ofOption, Out.bind, List.nil_append] at hc ⊢
  cases hmk : Mesh.makeTan (fileMesh conv a).idx (fileMesh conv a).vtx (fileMesh conv a).tan with
  | none => rw [hmk] at hc; simp at hc
  | some m => simp only [Out.emit, Out.throw, if_neg (not_lt.2 hm), List.append_nil]

/-- A quadrilateral of two triangles and a stray line, with texture coordinates. -/
def exMesh (mat : Nat) : AiMesh :=
  { faces := [[0, 1, 2], [0, 3], [2, 1, 3]], numVertices := 4, vertices := [⟨0, 0, 0⟩, ⟨1, 0, 0⟩, ⟨0, 1, 0⟩, ⟨1, 1, 0⟩], normals := none,
    texCoords := some [⟨0, 0, 0⟩, ⟨1, 0, 0⟩, ⟨0, 1, 0⟩, ⟨1, 1, 0⟩], colors := none,
    tangents := some ([⟨1, 0, 0⟩, ⟨1, 0, 0⟩, ⟨1, 0, 0⟩, ⟨1, 0, 0⟩], [⟨0, 1, 0⟩, ⟨0, 1, 0⟩, ⟨0, 1, 0⟩, ⟨0, 1, 0⟩]), materialIndex := mat }

theorem exMesh_wf (mat : Nat) : Wf (exMesh mat) ∧
    (∀ t ∈ triangles (exMesh mat), t.1 < (exMesh mat).numVertices ∧ t.2.1 < (exMesh mat).numVertices ∧ t.2.2 < (exMesh mat).numVertices) ∧
    triangles (exMesh mat) = [(0, 1, 2), (2, 1, 3)] := by
  have e : triangles (exMesh mat) = [(0, 1, 2), (2, 1, 3)] := rfl
  refine ⟨⟨rfl, ?_, ?_, ?_, ?_⟩, ?_, e⟩
  · intro l h; cases h
  · intro l h; cases h; rfl
  · intro l h; cases h
  · intro l h; cases h; exact ⟨rfl, rfl⟩
  · rw [e]; simp [exMesh]

/-- The hypotheses of `C109_mesh` are met; the middle of the second triangle's first edge has texture coordinates (1/2, 1/2). -/
example : ∃ (mesh : Mesh.Mesh 1) (s : Surf 1), convertMesh (fun c _ => c.1) 3 (exMesh 2) = ⟨[.geometry, .primitive], some (mesh, 2)⟩ ∧
    mesh.surface 1 (1 / 2) 0 = some s ∧ s.uv = (1 / 2, 1 / 2) ∧ s.normal = ⟨0, 1, 0⟩ := by
  obtain ⟨w, hi, ht⟩ := exMesh_wf 2
  obtain ⟨mesh, h1, _, h3⟩ := C109_mesh (n := 1) (fun c _ => c.1) 3 (exMesh 2) w hi (by rw [ht]; norm_num) (by simp [exMesh])
  obtain ⟨s, h4, _, h5, h6, _⟩ := h3 1 2 1 3 (by rw [ht]; rfl) (1 / 2) 0
  refine ⟨mesh, s, h1, h4, ?_, ?_⟩
  · rw [h6]; norm_num [exMesh, AiMesh.tex, mix2, List.getD]
  · rw [h5]; ext <;> norm_num [exMesh, AiMesh.nrm, mix3]

/-- **C109 is violated** by a mesh without an existing material. -/
theorem C109_violated : ¬ C109_full := by
  intro h
  obtain ⟨w, hi, ht⟩ := exMesh_wf 0
  have := h (fun c _ => c.1) 0 (exMesh 0) w hi
  rw [C109_no_material _ 0 (exMesh 0) w hi (by rw [ht]; norm_num) (by simp)] at this
  simp at this

end Huira.Loader
