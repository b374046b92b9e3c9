import Verif.Geometry.MeshModel
import Mathlib.Tactic

/-!
# Meshes: accepted buffers, interpolation (C68)
-/

set_option linter.unusedSimpArgs false
set_option linter.unusedVariables false

namespace Huira.Mesh

noncomputable section
open V3

variable {n : ℕ}

/-! ## Specification -/

/-- A well-formed mesh: every index names a vertex, and there are no tangents or one for each vertex. -/
def WellFormed (m : Mesh n) : Prop := (∀ i ∈ m.idx, i < m.vtx.length) ∧ (m.tan = [] ∨ m.tan.length = m.vtx.length)

/-- Barycentric coordinates of a point of the triangle. -/
def Inside (u v : ℝ) : Prop := 0 ≤ u ∧ 0 ≤ v ∧ u + v ≤ 1

/-- The corners of a triangle. -/
structure Corners (m : Mesh n) (prim : ℕ) (a b c : Vtx n) : Prop where
  ex : ∃ i j k, m.idx[3 * prim]? = some i ∧ m.idx[3 * prim + 1]? = some j ∧ m.idx[3 * prim + 2]? = some k ∧
    m.vtx[i]? = some a ∧ m.vtx[j]? = some b ∧ m.vtx[k]? = some c

/-- **C68.**  A mesh is constructed exactly from well-formed buffers, and holds exactly those buffers. -/
theorem C68_accept (idx : List ℕ) (vtx : List (Vtx n)) (tan : List Tan) :
    (∀ m, make idx vtx = some m ↔ m = ⟨idx, vtx, []⟩ ∧ WellFormed m) ∧
    (∀ m, makeTan idx vtx tan = some m ↔ m = ⟨idx, vtx, tan⟩ ∧ WellFormed m) := by
  constructor
  · intro m
    unfold make
    split_ifs with h
    · simp only [reduceCtorEq, false_iff, not_and]
      rintro rfl ⟨h1, _⟩
      obtain ⟨i, hi, hge⟩ := List.any_eq_true.mp h
      have h3 : i < vtx.length := h1 i hi
      simp at hge; omega
    · rw [Option.some.injEq]
      constructor
      · rintro rfl
        refine ⟨rfl, fun i hi => ?_, Or.inl rfl⟩
        by_contra hc
        exact h (List.any_eq_true.mpr ⟨i, hi, by simpa using hc⟩)
      · rintro ⟨rfl, _⟩; rfl
  · intro m
    unfold makeTan
    split_ifs with h h2
    · simp only [reduceCtorEq, false_iff, not_and]
      rintro rfl ⟨h1, _⟩
      obtain ⟨i, hi, hge⟩ := List.any_eq_true.mp h
      have h3 : i < vtx.length := h1 i hi
      simp at hge; omega
    · simp only [reduceCtorEq, false_iff, not_and]
      rintro rfl ⟨_, h1 | h1⟩
      · exact h2.1 (by simpa using h1)
      · exact h2.2 h1
    · rw [Option.some.injEq]
      constructor
      · rintro rfl
        refine ⟨rfl, fun i hi => ?_, ?_⟩
        · by_contra hc
          exact h (List.any_eq_true.mpr ⟨i, hi, by simpa using hc⟩)
        · simp only
          by_cases h3 : tan.length = 0
          · exact Or.inl (List.length_eq_zero_iff.mp h3)
          · exact Or.inr (by by_contra h4; exact h2 ⟨h3, h4⟩)
      · rintro ⟨rfl, _⟩; rfl

theorem index_eq (m : Mesh n) (hs : m.idx.length ≤ 2 ^ 32) {prim k : ℕ} (hp : prim < m.triangleCount) (hk : k < 3) :
    m.index prim k = m.idx[3 * prim + k]? ∧ 3 * prim + k < m.idx.length := by
  unfold Mesh.triangleCount at hp
  have h : 3 * prim + k < m.idx.length := by omega
  refine ⟨?_, h⟩
  unfold Mesh.index
  rw [Nat.mod_eq_of_lt (by omega), mul_comm]

/-- **C68.**  For every well-formed mesh of at most 2³² indices and every triangle of it, the surface data and the texture
coordinates are computed without reading outside a buffer; they are the barycentric mixtures of the triangle's corners. -/
theorem C68_surface_partial (m : Mesh n) (hw : WellFormed m) (hs : m.idx.length ≤ 2 ^ 32) (prim : ℕ)
    (hp : prim < m.triangleCount) (u v : ℝ) :
    ∃ a b c s, Corners m prim a b c ∧ m.surface prim u v = some s ∧ m.computeUv prim u v = some s.uv ∧
      s.position = mix3 (1 - u - v) u v a.position b.position c.position ∧
      s.normal = mix3 (1 - u - v) u v a.normal b.normal c.normal ∧
      s.uv = mix2 (1 - u - v) u v a.uv b.uv c.uv ∧
      (∀ i, s.albedo i = (1 - u - v) * a.albedo i + u * b.albedo i + v * c.albedo i) ∧
      (m.tan = [] → s.tangent = V3.zero ∧ s.bitangent = V3.zero) ∧
      (m.tan ≠ [] → ∃ i j k ta tb tc, m.idx[3 * prim]? = some i ∧ m.idx[3 * prim + 1]? = some j ∧
        m.idx[3 * prim + 2]? = some k ∧ m.tan[i]? = some ta ∧ m.tan[j]? = some tb ∧ m.tan[k]? = some tc ∧
        s.tangent = mix3 (1 - u - v) u v ta.tangent tb.tangent tc.tangent ∧
        s.bitangent = mix3 (1 - u - v) u v ta.bitangent tb.bitangent tc.bitangent) := by
  obtain ⟨e0, l0⟩ := index_eq m hs hp (k := 0) (by norm_num)
  obtain ⟨e1, l1⟩ := index_eq m hs hp (k := 1) (by norm_num)
  obtain ⟨e2, l2⟩ := index_eq m hs hp (k := 2) (by norm_num)
  rw [List.getElem?_eq_getElem l0] at e0
  rw [List.getElem?_eq_getElem l1] at e1
  rw [List.getElem?_eq_getElem l2] at e2
  have g0 := hw.1 _ (List.getElem_mem l0)
  have g1 := hw.1 _ (List.getElem_mem l1)
  have g2 := hw.1 _ (List.getElem_mem l2)
  have c0 := List.getElem?_eq_getElem l0
  have c1 := List.getElem?_eq_getElem l1
  have c2 := List.getElem?_eq_getElem l2
  simp only [add_zero] at c0
  generalize m.idx[3 * prim + 0] = i at *
  generalize m.idx[3 * prim + 1] = j at *
  generalize m.idx[3 * prim + 2] = k at *
  have hc : Corners m prim m.vtx[i] m.vtx[j] m.vtx[k] :=
    ⟨i, j, k, c0, c1, c2, List.getElem?_eq_getElem g0, List.getElem?_eq_getElem g1, List.getElem?_eq_getElem g2⟩
  by_cases ht : m.tan = []
  · have hn : m.hasTangents = false := by simp [Mesh.hasTangents, ht]
    refine ⟨m.vtx[i], m.vtx[j], m.vtx[k], ⟨mix3 (1 - u - v) u v m.vtx[i].position m.vtx[j].position m.vtx[k].position,
      mix3 (1 - u - v) u v m.vtx[i].normal m.vtx[j].normal m.vtx[k].normal, mix2 (1 - u - v) u v m.vtx[i].uv m.vtx[j].uv m.vtx[k].uv,
      fun l => (1 - u - v) * m.vtx[i].albedo l + u * m.vtx[j].albedo l + v * m.vtx[k].albedo l, V3.zero, V3.zero⟩, hc, ?_, ?_, rfl, rfl, rfl, fun _ => rfl, fun _ => ⟨rfl, rfl⟩, fun h => absurd ht h⟩
    · simp only [Mesh.surface, e0, e1, e2, hn, List.getElem?_eq_getElem g0, List.getElem?_eq_getElem g1,
        List.getElem?_eq_getElem g2, Option.bind_eq_bind, Option.bind_some, Bool.false_eq_true, if_false, Option.pure_def]
    · simp only [Mesh.computeUv, e0, e1, e2, List.getElem?_eq_getElem g0, List.getElem?_eq_getElem g1,
        List.getElem?_eq_getElem g2, Option.bind_eq_bind, Option.bind_some, Option.pure_def]
  · have hn : m.hasTangents = true := by simp [Mesh.hasTangents, ht]
    have hl : m.tan.length = m.vtx.length := hw.2.resolve_left ht
    have t0 : i < m.tan.length := by omega
    have t1 : j < m.tan.length := by omega
    have t2 : k < m.tan.length := by omega
    refine ⟨m.vtx[i], m.vtx[j], m.vtx[k], ⟨mix3 (1 - u - v) u v m.vtx[i].position m.vtx[j].position m.vtx[k].position,
      mix3 (1 - u - v) u v m.vtx[i].normal m.vtx[j].normal m.vtx[k].normal, mix2 (1 - u - v) u v m.vtx[i].uv m.vtx[j].uv m.vtx[k].uv,
      fun l => (1 - u - v) * m.vtx[i].albedo l + u * m.vtx[j].albedo l + v * m.vtx[k].albedo l, mix3 (1 - u - v) u v m.tan[i].tangent m.tan[j].tangent m.tan[k].tangent,
      mix3 (1 - u - v) u v m.tan[i].bitangent m.tan[j].bitangent m.tan[k].bitangent⟩, hc, ?_, ?_, rfl, rfl, rfl, fun _ => rfl,
      fun h => absurd h ht, fun _ => ⟨i, j, k, m.tan[i], m.tan[j], m.tan[k], c0, c1, c2, List.getElem?_eq_getElem t0,
        List.getElem?_eq_getElem t1, List.getElem?_eq_getElem t2, rfl, rfl⟩⟩
    · simp only [Mesh.surface, e0, e1, e2, hn, List.getElem?_eq_getElem g0, List.getElem?_eq_getElem g1,
        List.getElem?_eq_getElem g2, List.getElem?_eq_getElem t0, List.getElem?_eq_getElem t1,
        List.getElem?_eq_getElem t2, Option.bind_eq_bind, Option.bind_some, if_true, Option.pure_def]
    · simp only [Mesh.computeUv, e0, e1, e2, List.getElem?_eq_getElem g0, List.getElem?_eq_getElem g1,
        List.getElem?_eq_getElem g2, Option.bind_eq_bind, Option.bind_some, Option.pure_def]

theorem mix_between {w u v a b c lo hi : ℝ} (hw : 0 ≤ w) (hu : 0 ≤ u) (hv : 0 ≤ v) (h1 : w + u + v = 1)
    (ha : lo ≤ a ∧ a ≤ hi) (hb : lo ≤ b ∧ b ≤ hi) (hc : lo ≤ c ∧ c ≤ hi) :
    lo ≤ w * a + u * b + v * c ∧ w * a + u * b + v * c ≤ hi := by
  constructor
  · have e : lo = w * lo + u * lo + v * lo := by rw [← add_mul, ← add_mul, h1, one_mul]
    rw [e]
    gcongr
    exacts [ha.1, hb.1, hc.1]
  · have e : hi = w * hi + u * hi + v * hi := by rw [← add_mul, ← add_mul, h1, one_mul]
    rw [e]
    gcongr
    exacts [ha.2, hb.2, hc.2]

theorem convex_of_mix (u v : ℝ) (hin : Inside u v) (a b c : Vtx n) (s : Surf n)
    (hpos : s.position = mix3 (1 - u - v) u v a.position b.position c.position)
    (huv : s.uv = mix2 (1 - u - v) u v a.uv b.uv c.uv)
    (hal : ∀ i, s.albedo i = (1 - u - v) * a.albedo i + u * b.albedo i + v * c.albedo i) :
    (∀ (d : V3) (k : ℝ), dot d a.position ≤ k → dot d b.position ≤ k → dot d c.position ≤ k → dot d s.position ≤ k) ∧
    (∀ p q k : ℝ, p * a.uv.1 + q * a.uv.2 ≤ k → p * b.uv.1 + q * b.uv.2 ≤ k → p * c.uv.1 + q * c.uv.2 ≤ k →
      p * s.uv.1 + q * s.uv.2 ≤ k) ∧
    (∀ i lo hi, (lo ≤ a.albedo i ∧ a.albedo i ≤ hi) → (lo ≤ b.albedo i ∧ b.albedo i ≤ hi) →
      (lo ≤ c.albedo i ∧ c.albedo i ≤ hi) → lo ≤ s.albedo i ∧ s.albedo i ≤ hi) := by
  obtain ⟨hu, hv, huv1⟩ := hin
  have hw : 0 ≤ 1 - u - v := by linarith
  have hsum : (1 - u - v) + u + v = 1 := by ring
  refine ⟨fun d k h1 h2 h3 => ?_, fun p q k h1 h2 h3 => ?_, fun i lo hi h1 h2 h3 => ?_⟩
  · have : dot d s.position = (1 - u - v) * dot d a.position + u * dot d b.position + v * dot d c.position := by
      rw [hpos]; simp [mix3, dot]; ring
    rw [this]
    nlinarith [mul_le_mul_of_nonneg_left h1 hw, mul_le_mul_of_nonneg_left h2 hu, mul_le_mul_of_nonneg_left h3 hv]
  · have : p * s.uv.1 + q * s.uv.2 = (1 - u - v) * (p * a.uv.1 + q * a.uv.2) + u * (p * b.uv.1 + q * b.uv.2) +
        v * (p * c.uv.1 + q * c.uv.2) := by
      rw [huv]; simp [mix2]; ring
    rw [this]
    nlinarith [mul_le_mul_of_nonneg_left h1 hw, mul_le_mul_of_nonneg_left h2 hu, mul_le_mul_of_nonneg_left h3 hv]
  · rw [hal]; exact mix_between hw hu hv hsum h1 h2 h3

theorem corners_unique {m : Mesh n} {prim : ℕ} {a b c a' b' c' : Vtx n} (h : Corners m prim a b c)
    (h' : Corners m prim a' b' c') : a = a' ∧ b = b' ∧ c = c' := by
  obtain ⟨i, j, k, h1, h2, h3, h4, h5, h6⟩ := h.ex
  obtain ⟨i', j', k', g1, g2, g3, g4, g5, g6⟩ := h'.ex
  rw [h1, Option.some.injEq] at g1
  rw [h2, Option.some.injEq] at g2
  rw [h3, Option.some.injEq] at g3
  subst g1 g2 g3
  rw [h4, Option.some.injEq] at g4
  rw [h5, Option.some.injEq] at g5
  rw [h6, Option.some.injEq] at g6
  exact ⟨g4, g5, g6⟩

/-- **C68.**  For a point of the triangle every half space containing the three corners' attribute contains the interpolated one:
it is a convex combination of the corners.  (Stated for position, texture coordinates, colour.) -/
theorem C68_convex (m : Mesh n) (hw : WellFormed m) (hs : m.idx.length ≤ 2 ^ 32) (prim : ℕ)
    (hp : prim < m.triangleCount) (u v : ℝ) (hin : Inside u v) (a b c : Vtx n) (s : Surf n) (hc : Corners m prim a b c)
    (hsurf : m.surface prim u v = some s) :
    (∀ (d : V3) (k : ℝ), dot d a.position ≤ k → dot d b.position ≤ k → dot d c.position ≤ k → dot d s.position ≤ k) ∧
    (∀ p q k : ℝ, p * a.uv.1 + q * a.uv.2 ≤ k → p * b.uv.1 + q * b.uv.2 ≤ k → p * c.uv.1 + q * c.uv.2 ≤ k →
      p * s.uv.1 + q * s.uv.2 ≤ k) ∧
    (∀ i lo hi, (lo ≤ a.albedo i ∧ a.albedo i ≤ hi) → (lo ≤ b.albedo i ∧ b.albedo i ≤ hi) →
      (lo ≤ c.albedo i ∧ c.albedo i ≤ hi) → lo ≤ s.albedo i ∧ s.albedo i ≤ hi) := by
  obtain ⟨a', b', c', s', hc', h1, -, h2, -, h3, h4, -, -⟩ := C68_surface_partial m hw hs prim hp u v
  obtain ⟨rfl, rfl, rfl⟩ := corners_unique hc hc'
  rw [h1, Option.some.injEq] at hsurf
  subst hsurf
  exact convex_of_mix u v hin _ _ _ _ h2 h3 h4

/-- **C68.**  At the corners the surface data is the corner's: barycentric (0,0), (1,0), (0,1) are the first, second and third
vertex of the triangle. -/
theorem C68_corners (a b c : V3) (x y z : ℝ × ℝ) :
    mix3 (1 - 0 - 0) 0 0 a b c = a ∧ mix3 (1 - 1 - 0) 1 0 a b c = b ∧ mix3 (1 - 0 - 1) 0 1 a b c = c ∧
    mix2 (1 - 0 - 0) 0 0 x y z = x ∧ mix2 (1 - 1 - 0) 1 0 x y z = y ∧ mix2 (1 - 0 - 1) 0 1 x y z = z := by
  refine ⟨?_, ?_, ?_, ?_, ?_, ?_⟩
  · ext <;> simp [mix3]
  · ext <;> simp [mix3]
  · ext <;> simp [mix3]
  · ext <;> simp [mix2]
  · ext <;> simp [mix2]
  · ext <;> simp [mix2]

/-- **C68, malformed input throws, in full**: only buffers describing whole triangles are accepted. -/
def C68_full : Prop := ∀ (idx : List ℕ) (vtx : List (Vtx 1)) (m : Mesh 1), make idx vtx = some m → idx.length % 3 = 0

/-- **C68 does not hold in full**: indices that do not make up a whole triangle are accepted and ignored. -/
theorem C68_violated : ¬ C68_full := by
  intro h
  have := h [0] [⟨V3.zero, fun _ => 1, V3.zero, (0, 0)⟩] ⟨[0], [⟨V3.zero, fun _ => 1, V3.zero, (0, 0)⟩], []⟩
    (by simp [make])
  simp at this

/-- **C68.**  A vertex without normal (the default is zero) gives a zero shading normal on its triangle's corner, which is
normalised later. -/
theorem C68_zero_normal (u v : ℝ) (a b c : Vtx n) (h : a.normal = V3.zero ∧ b.normal = V3.zero ∧ c.normal = V3.zero) :
    mix3 (1 - u - v) u v a.normal b.normal c.normal = V3.zero := by
  obtain ⟨h1, h2, h3⟩ := h
  rw [h1, h2, h3]; ext <;> simp [mix3, V3.zero]

/-- The index arithmetic wraps: with more than 2³² indices the triangle number 1431655766 reads the indices of other triangles. -/
theorem C68_wraps (m : Mesh n) : m.index 1431655766 0 = m.idx[2]? := by
  unfold Mesh.index; norm_num

/-- Two triangles with tangents meet the hypotheses. -/
example : ∃ m : Mesh 1, makeTan [0, 1, 2, 2, 1, 3]
    [⟨⟨0, 0, 0⟩, fun _ => 1, ⟨0, 0, 1⟩, (0, 0)⟩, ⟨⟨1, 0, 0⟩, fun _ => 1, ⟨0, 0, 1⟩, (1, 0)⟩,
     ⟨⟨0, 1, 0⟩, fun _ => 1, ⟨0, 0, 1⟩, (0, 1)⟩, ⟨⟨1, 1, 0⟩, fun _ => 1, ⟨0, 0, 1⟩, (1, 1)⟩]
    (List.replicate 4 ⟨⟨1, 0, 0⟩, ⟨0, 1, 0⟩⟩) = some m ∧ WellFormed m ∧ 1 < m.triangleCount ∧ m.idx.length ≤ 2 ^ 32 ∧
    Inside 0.25 0.5 := by
  refine ⟨_, by simp [makeTan]; rfl, ⟨?_, Or.inr ?_⟩, ?_, ?_, ?_⟩
  · intro i hi; simp at hi ⊢; omega
  · simp
  · simp [Mesh.triangleCount]
  · simp
  · refine ⟨?_, ?_, ?_⟩ <;> norm_num

end
end Huira.Mesh
