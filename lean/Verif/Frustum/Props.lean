import Verif.Frustum.Model
import Verif.Frustum.Fan
import Mathlib.Tactic.Module
set_option linter.unusedSimpArgs false
/-!
# C45: triangle clipping is exact

The specification is `Triangle.at`: the interpolated surface record (position, albedo, normal, uv, and tangents when
present) of a triangle at barycentric weights `u, v, w`.
-/
namespace Huira.Frustum
noncomputable section
open Classical

variable {S : Type} [AddCommGroup S] [Module ℝ S]

/-- Componentwise interpolation of a vertex. -/
def mixVertex (a b c : Vertex S) (u v w : ℝ) : Vertex S :=
  ⟨u * a.position + v * b.position + w * c.position, u • a.albedo + v • b.albedo + w • c.albedo,
   u * a.normal + v * b.normal + w * c.normal, u • a.uv + v • b.uv + w • c.uv⟩

def mixTangent (a b c : Tangent) (u v w : ℝ) : Tangent :=
  ⟨u * a.tangent + v * b.tangent + w * c.tangent, u * a.bitangent + v * b.bitangent + w * c.bitangent⟩

/-- The surface record at barycentric weights `u, v, w`. -/
def Triangle.at (t : Triangle S) (u v w : ℝ) : Vertex S × Option Tangent :=
  (mixVertex t.v0 t.v1 t.v2 u v w, t.tangents.map (fun q => mixTangent q.1 q.2.1 q.2.2 u v w))

/-- Barycentric weights. -/
def Bary (u v w : ℝ) : Prop := 0 ≤ u ∧ 0 ≤ v ∧ 0 ≤ w ∧ u + v + w = 1

/-- A point is in the (closed) frustum. -/
def Inside (normals : List V3) (x : V3) : Prop := ∀ n ∈ normals, 0 ≤ V3.dot n x

/-! ### Transfer to barycentric coordinates -/

/-- The clip vertex at barycentric point `b`. -/
def B (x y z : ClipVertex S) (b : Pt) : ClipVertex S :=
  ⟨mixVertex x.vertex y.vertex z.vertex (1 - b.1 - b.2) b.1 b.2,
   mixTangent x.tangent y.tangent z.tangent (1 - b.1 - b.2) b.1 b.2⟩

theorem v3_mix_lerp (x y z : V3) (a b : Pt) (t : ℝ) :
    (((1 - a.1 - a.2) * x + a.1 * y + a.2 * z : V3) +
      t * (((1 - b.1 - b.2) * x + b.1 * y + b.2 * z : V3) - ((1 - a.1 - a.2) * x + a.1 * y + a.2 * z))) =
    (1 - (lerpP a b t).1 - (lerpP a b t).2) * x + (lerpP a b t).1 * y + (lerpP a b t).2 * z := by
  ext <;> simp [lerpP] <;> ring

theorem mod_mix_lerp {M : Type} [AddCommGroup M] [Module ℝ M] (x y z : M) (a b : Pt) (t : ℝ) :
    (((1 - a.1 - a.2) • x + a.1 • y + a.2 • z) +
      t • (((1 - b.1 - b.2) • x + b.1 • y + b.2 • z) - ((1 - a.1 - a.2) • x + a.1 • y + a.2 • z))) =
    (1 - (lerpP a b t).1 - (lerpP a b t).2) • x + (lerpP a b t).1 • y + (lerpP a b t).2 • z := by
  simp only [lerpP]; module

theorem lerp_B (x y z : ClipVertex S) (a b : Pt) (t : ℝ) :
    lerp (B x y z a) (B x y z b) t = B x y z (lerpP a b t) := by
  simp only [lerp, B, mixVertex, mixTangent]
  rw [v3_mix_lerp, v3_mix_lerp, v3_mix_lerp, v3_mix_lerp, mod_mix_lerp, mod_mix_lerp]

def planeAff (x y z : ClipVertex S) (n : V3) : Aff :=
  ⟨V3.dot n x.vertex.position, V3.dot n y.vertex.position - V3.dot n x.vertex.position,
   V3.dot n z.vertex.position - V3.dot n x.vertex.position⟩

theorem dot_B (x y z : ClipVertex S) (n : V3) (b : Pt) :
    V3.dot n (B x y z b).vertex.position = (planeAff x y z n).ev b := by
  simp only [B, mixVertex, planeAff, Aff.ev, V3.dot, V3.add_x, V3.add_y, V3.add_z, V3.hmul_x, V3.hmul_y, V3.hmul_z]
  ring

theorem clipEdge_B (x y z : ClipVertex S) (n : V3) (a b : Pt) :
    clipEdge n (B x y z a) (B x y z b) = (stepP (planeAff x y z n) a b).map (B x y z) := by
  simp only [clipEdge, stepP, dot_B, lerp_B, crossT]
  split_ifs <;> simp

theorem zip_flatMap_chain (f : Aff) : ∀ (L : List Pt) (a z : Pt),
    ((a :: L).zip (L ++ [z])).flatMap (fun e => stepP f e.1 e.2) = chain f (a :: L ++ [z])
  | [], a, z => by simp [chain]
  | b :: L, a, z => by
    have := zip_flatMap_chain f L b z
    simp only [List.cons_append, List.zip_cons_cons, List.flatMap_cons, chain] at this ⊢
    rw [this]

theorem clipPolygon_B (x y z : ClipVertex S) (n : V3) (l : List Pt) :
    clipPolygon n (l.map (B x y z)) = (clipP (planeAff x y z n) l).map (B x y z) := by
  cases l with
  | nil => rfl
  | cons p l =>
    have h := zip_flatMap_chain (planeAff x y z n) l p p
    show _ = (chain (planeAff x y z n) (p :: l ++ [p])).map _
    rw [← h]
    simp only [clipPolygon, List.map_cons, List.tail_cons, List.take_succ_cons, List.take_zero]
    rw [show l.map (B x y z) ++ [B x y z p] = (l ++ [p]).map (B x y z) by simp,
      show B x y z p :: l.map (B x y z) = (p :: l).map (B x y z) by simp, List.zip_map, List.map_flatMap,
      List.flatMap_map]
    simp only [Prod.map_fst, Prod.map_snd, clipEdge_B]

/-- The barycentric polygon after all passes. -/
def clipAllP : List Aff → List Pt → List Pt
  | [], l => l
  | f :: fs, l => clipAllP fs (clipP f l)

theorem clipP_nil (f : Aff) : clipP f [] = [] := rfl
theorem clipAllP_nil : ∀ fs, clipAllP fs [] = []
  | [] => rfl
  | f :: fs => by rw [clipAllP, clipP_nil, clipAllP_nil fs]

theorem clipAll_B (x y z : ClipVertex S) : ∀ (ns : List V3) (l : List Pt),
    clipAll ns (l.map (B x y z)) = (clipAllP (ns.map (planeAff x y z)) l).map (B x y z)
  | [], l => rfl
  | n :: ns, l => by
    simp only [clipAll, List.map_cons, clipAllP, clipPolygon_B]
    by_cases h : clipP (planeAff x y z n) l = []
    · simp [h, clipAllP_nil]
    · have : ((clipP (planeAff x y z n) l).map (B x y z)).isEmpty = false := by simp [h]
      rw [this]; simpa using clipAll_B x y z ns (clipP (planeAff x y z n) l)

/-- The corners of the barycentric triangle. -/
def corners : List Pt := [(0, 0), (1, 0), (0, 1)]

theorem corners_conv : Conv corners := by
  simp [corners, Conv, orient]

theorem corners_simple : Simple corners := triangle_simple _ _ _

theorem corners_hull (b : Pt) : b ∈ convexHull ℝ {y | y ∈ corners} ↔ 0 ≤ b.1 ∧ 0 ≤ b.2 ∧ b.1 + b.2 ≤ 1 := by
  have : {y | y ∈ corners} = ({(0, 0), (1, 0), (0, 1)} : Set Pt) := by ext y; simp [corners]
  rw [this, hull_triple]
  constructor
  · rintro ⟨u, v, w, hu, hv, hw, hs, rfl⟩
    simp; exact ⟨hv, hw, by linarith⟩
  · rintro ⟨h1, h2, h3⟩
    refine ⟨1 - b.1 - b.2, b.1, b.2, by linarith, h1, h2, by ring, ?_⟩
    ext <;> simp

theorem clipAllP_spec : ∀ (fs : List Aff) (l : List Pt), Conv l → Simple l → (l = [] ∨ 3 ≤ l.length) →
    Conv (clipAllP fs l) ∧ (clipAllP fs l = [] ∨ 3 ≤ (clipAllP fs l).length) ∧
    (clipAllP fs l).length ≤ l.length + fs.length ∧
    (∀ b, b ∈ convexHull ℝ {y | y ∈ clipAllP fs l} ↔ b ∈ convexHull ℝ {y | y ∈ l} ∧ ∀ f ∈ fs, 0 ≤ f.ev b)
  | [], l, hc, hs, hl => ⟨hc, hl, by simp [clipAllP], by simp [clipAllP]⟩
  | f :: fs, l, hc, hs, hl => by
    have hl' : (clipP f l).length ≤ l.length + 1 ∧ (clipP f l = [] ∨ 3 ≤ (clipP f l).length) := by
      rcases hl with rfl | h3
      · simp [clipP]
      · exact clip_length hs h3
    obtain ⟨h1, h2, h3, h4⟩ := clipAllP_spec fs (clipP f l) (clip_conv hc) (clip_simple hs) hl'.2
    refine ⟨h1, h2, ?_, ?_⟩
    · simp only [clipAllP, List.length_cons]; omega
    · intro b
      simp only [clipAllP, h4, clip_hull hc, Set.mem_inter_iff, Set.mem_setOf_eq, List.mem_cons, forall_eq_or_imp,
        and_assoc]

/-- The three corner records of `initial`. -/
def cornersOf (t : Triangle S) : ClipVertex S × ClipVertex S × ClipVertex S :=
  match t.tangents with
  | some (a, b, c) => (⟨t.v0, a⟩, ⟨t.v1, b⟩, ⟨t.v2, c⟩)
  | none => (⟨t.v0, ⟨V3.zero, V3.zero⟩⟩, ⟨t.v1, ⟨V3.zero, V3.zero⟩⟩, ⟨t.v2, ⟨V3.zero, V3.zero⟩⟩)

def Bt (t : Triangle S) : Pt → ClipVertex S := B (cornersOf t).1 (cornersOf t).2.1 (cornersOf t).2.2

theorem mod_c0 {M : Type} [AddCommGroup M] [Module ℝ M] (x y z : M) :
    (1 - (0:ℝ) - 0) • x + (0:ℝ) • y + (0:ℝ) • z = x := by simp
theorem mod_c1 {M : Type} [AddCommGroup M] [Module ℝ M] (x y z : M) :
    (1 - (1:ℝ) - 0) • x + (1:ℝ) • y + (0:ℝ) • z = y := by simp
theorem mod_c2 {M : Type} [AddCommGroup M] [Module ℝ M] (x y z : M) :
    (1 - (0:ℝ) - 1) • x + (0:ℝ) • y + (1:ℝ) • z = z := by simp

theorem B_corner (x y z : ClipVertex S) : B x y z (0, 0) = x ∧ B x y z (1, 0) = y ∧ B x y z (0, 1) = z := by
  refine ⟨?_, ?_, ?_⟩
  · ext <;> simp [B, mixVertex, mixTangent]
  · ext <;> simp [B, mixVertex, mixTangent]
  · ext <;> simp [B, mixVertex, mixTangent]

theorem initial_eq (t : Triangle S) : initial t = corners.map (Bt t) := by
  have h := B_corner (cornersOf t).1 (cornersOf t).2.1 (cornersOf t).2.2
  simp only [corners, List.map_cons, List.map_nil, Bt, h.1, h.2.1, h.2.2]
  unfold initial cornersOf
  rcases t.tangents with _ | ⟨a, b, c⟩ <;> rfl

theorem cornersOf_vertex (t : Triangle S) : (cornersOf t).1.vertex = t.v0 ∧ (cornersOf t).2.1.vertex = t.v1 ∧
    (cornersOf t).2.2.vertex = t.v2 := by
  unfold cornersOf; split <;> simp

/-- The record of the input triangle at a barycentric point, in clip-vertex form. -/
theorem at_eq (t : Triangle S) (b : Pt) :
    t.at (1 - b.1 - b.2) b.1 b.2 =
      ((Bt t b).vertex, if t.tangents.isSome then some (Bt t b).tangent else none) := by
  obtain ⟨h1, h2, h3⟩ := cornersOf_vertex t
  unfold Triangle.at Bt B
  rw [h1, h2, h3]
  unfold cornersOf
  rcases t.tangents with _ | ⟨a, b, c⟩ <;> simp

theorem v3_mix_mix (x y z : V3) (a b c : Pt) (u v w : ℝ) (h : u + v + w = 1) :
    (u * ((1 - a.1 - a.2) * x + a.1 * y + a.2 * z : V3) + v * ((1 - b.1 - b.2) * x + b.1 * y + b.2 * z : V3) +
      w * ((1 - c.1 - c.2) * x + c.1 * y + c.2 * z : V3)) =
    (1 - (u • a + v • b + w • c).1 - (u • a + v • b + w • c).2) * x + (u • a + v • b + w • c).1 * y +
      (u • a + v • b + w • c).2 * z := by
  have : u = 1 - v - w := by linarith
  subst this
  ext <;> simp <;> ring

theorem mod_mix_mix {M : Type} [AddCommGroup M] [Module ℝ M] (x y z : M) (a b c : Pt) (u v w : ℝ)
    (h : u + v + w = 1) :
    (u • ((1 - a.1 - a.2) • x + a.1 • y + a.2 • z) + v • ((1 - b.1 - b.2) • x + b.1 • y + b.2 • z) +
      w • ((1 - c.1 - c.2) • x + c.1 • y + c.2 • z)) =
    (1 - (u • a + v • b + w • c).1 - (u • a + v • b + w • c).2) • x + (u • a + v • b + w • c).1 • y +
      (u • a + v • b + w • c).2 • z := by
  have : u = 1 - v - w := by linarith
  subst this
  simp only [Prod.fst_add, Prod.snd_add, Prod.smul_fst, Prod.smul_snd, smul_eq_mul]
  module

/-- The record of an output triangle. -/
theorem mkTriangle_at (t : Triangle S) (a b c : Pt) (u v w : ℝ) (h : u + v + w = 1) :
    (mkTriangle t.tangents.isSome (Bt t a) (Bt t b) (Bt t c)).at u v w =
      t.at (1 - (u • a + v • b + w • c).1 - (u • a + v • b + w • c).2) (u • a + v • b + w • c).1
        (u • a + v • b + w • c).2 := by
  rw [at_eq]
  have hv : mixVertex (Bt t a).vertex (Bt t b).vertex (Bt t c).vertex u v w = (Bt t (u • a + v • b + w • c)).vertex := by
    simp only [Bt, B, mixVertex]
    rw [v3_mix_mix _ _ _ _ _ _ _ _ _ h, v3_mix_mix _ _ _ _ _ _ _ _ _ h, mod_mix_mix _ _ _ _ _ _ _ _ _ h,
      mod_mix_mix _ _ _ _ _ _ _ _ _ h]
  have ht : mixTangent (Bt t a).tangent (Bt t b).tangent (Bt t c).tangent u v w =
      (Bt t (u • a + v • b + w • c)).tangent := by
    simp only [Bt, B, mixTangent]
    rw [v3_mix_mix _ _ _ _ _ _ _ _ _ h, v3_mix_mix _ _ _ _ _ _ _ _ _ h]
  unfold Triangle.at mkTriangle
  simp only [hv]
  rcases hsome : t.tangents with _ | q
  · simp
  · simp [ht]

/-- The barycentric polygon `clip_triangle` ends with. -/
def poly (normals : List V3) (t : Triangle S) : List Pt :=
  clipAllP (normals.map (planeAff (cornersOf t).1 (cornersOf t).2.1 (cornersOf t).2.2)) corners

theorem clipTriangle_eq (normals : List V3) (t : Triangle S) :
    clipTriangle normals t = fan t.tangents.isSome ((poly normals t).map (Bt t)) := by
  unfold clipTriangle poly
  rw [initial_eq]
  show fan _ (clipAll normals (corners.map (B _ _ _))) = _
  rw [clipAll_B]; rfl

theorem poly_spec (normals : List V3) (t : Triangle S) :
    Conv (poly normals t) ∧ (poly normals t = [] ∨ 3 ≤ (poly normals t).length) ∧
    (poly normals t).length ≤ 3 + normals.length ∧
    (∀ b, b ∈ convexHull ℝ {y | y ∈ poly normals t} ↔
      (0 ≤ b.1 ∧ 0 ≤ b.2 ∧ b.1 + b.2 ≤ 1) ∧ Inside normals (Bt t b).vertex.position) := by
  obtain ⟨h1, h2, h3, h4⟩ := clipAllP_spec
    (normals.map (planeAff (cornersOf t).1 (cornersOf t).2.1 (cornersOf t).2.2)) corners corners_conv corners_simple
    (Or.inr (by simp [corners]))
  refine ⟨h1, h2, ?_, ?_⟩
  · rw [List.length_map] at h3; exact h3
  intro b
  have := h4 b
  rw [corners_hull] at this
  unfold poly
  rw [this]
  simp only [List.mem_map, forall_exists_index, and_imp, forall_apply_eq_imp_iff₂, Inside, Bt, dot_B]

/-- Output triangles are exactly the fan triangles of the polygon. -/
theorem mem_clipTriangle (normals : List V3) (t : Triangle S) (T : Triangle S) :
    T ∈ clipTriangle normals t ↔ ∃ p l q, poly normals t = p :: l ∧ q ∈ fanPairs l ∧
      T = mkTriangle t.tangents.isSome (Bt t p) (Bt t q.1) (Bt t q.2) := by
  rw [clipTriangle_eq]
  cases h : poly normals t with
  | nil => simp [fan]
  | cons p l =>
    simp only [List.map_cons, fan, List.mem_map, List.cons.injEq]
    constructor
    · rintro ⟨e, he, rfl⟩
      rw [← List.map_tail, List.zip_map] at he
      obtain ⟨q, hq, rfl⟩ := List.mem_map.mp he
      exact ⟨p, l, q, ⟨rfl, rfl⟩, hq, rfl⟩
    · rintro ⟨p', l', q, ⟨rfl, rfl⟩, hq, rfl⟩
      refine ⟨(Bt t q.1, Bt t q.2), ?_, rfl⟩
      rw [← List.map_tail, List.zip_map]
      exact List.mem_map.mpr ⟨q, hq, rfl⟩

/-- **C45 (nothing is lost).** Every point of the triangle inside all planes is a point of one of the returned
triangles, with the same interpolated albedo, normal, texture coordinate and tangents. -/
theorem C45_covers (normals : List V3) (t : Triangle S) {u v w : ℝ} (hb : Bary u v w)
    (hin : Inside normals (t.at u v w).1.position) :
    ∃ T ∈ clipTriangle normals t, ∃ u' v' w', Bary u' v' w' ∧ T.at u' v' w' = t.at u v w := by
  obtain ⟨hu, hv, hw, hs⟩ := hb
  have hu' : u = 1 - (v, w).1 - (v, w).2 := by simp; linarith
  have hat : t.at u v w = t.at (1 - ((v, w) : Pt).1 - ((v, w) : Pt).2) ((v, w) : Pt).1 ((v, w) : Pt).2 := by
    rw [← hu']
  obtain ⟨hc, hlen, _, hh⟩ := poly_spec normals t
  have hmem : ((v, w) : Pt) ∈ convexHull ℝ {y | y ∈ poly normals t} := by
    rw [hh]
    refine ⟨⟨hv, hw, by simp; linarith⟩, ?_⟩
    rw [hat, at_eq] at hin; exact hin
  rcases hp : poly normals t with _ | ⟨p, l⟩
  · rw [hp] at hmem; simp at hmem
  · rw [hp] at hmem hlen hc
    have hl : 2 ≤ l.length := by
      rcases hlen with h | h
      · simp at h
      · simpa using h
    obtain ⟨q, hq, u', v', w', h1, h2, h3, h4, h5⟩ := (fan_eq_hull hl hc _).mpr hmem
    refine ⟨_, (mem_clipTriangle normals t _).mpr ⟨p, l, q, hp, hq, rfl⟩, u', v', w', ⟨h1, h2, h3, h4⟩, ?_⟩
    rw [mkTriangle_at _ _ _ _ _ _ _ h4, ← h5, hat]

/-- **C45 (nothing is invented).** Every point of every returned triangle is a point of the original triangle inside
all planes, with the original triangle's interpolated attributes there. -/
theorem C45_sound (normals : List V3) (t : Triangle S) {T : Triangle S} (hT : T ∈ clipTriangle normals t)
    {u' v' w' : ℝ} (hb : Bary u' v' w') :
    ∃ u v w, Bary u v w ∧ T.at u' v' w' = t.at u v w ∧ Inside normals (t.at u v w).1.position := by
  obtain ⟨p, l, q, hp, hq, rfl⟩ := (mem_clipTriangle normals t T).mp hT
  obtain ⟨hc, hlen, _, hh⟩ := poly_spec normals t
  have hl : 2 ≤ l.length := by
    rcases hlen with h | h
    · rw [hp] at h; simp at h
    · rw [hp] at h; simpa using h
  rw [hp] at hc
  set b := u' • p + v' • q.1 + w' • q.2 with hbdef
  have hmem : b ∈ convexHull ℝ {y | y ∈ poly normals t} := by
    rw [hp]
    exact (fan_eq_hull hl hc b).mp ⟨q, hq, u', v', w', hb.1, hb.2.1, hb.2.2.1, hb.2.2.2, rfl⟩
  rw [hh] at hmem
  refine ⟨1 - b.1 - b.2, b.1, b.2, ⟨by linarith [hmem.1.2.2], hmem.1.1, hmem.1.2.1, by ring⟩, ?_, ?_⟩
  · rw [mkTriangle_at _ _ _ _ _ _ _ hb.2.2.2]
  · rw [at_eq]; exact hmem.2

/-- **C45 (as sets of points).** The union of the returned triangles is the triangle intersected with the frustum. -/
theorem C45_exact (normals : List V3) (t : Triangle S) (x : V3) :
    (∃ T ∈ clipTriangle normals t, ∃ u v w, Bary u v w ∧ (T.at u v w).1.position = x) ↔
      (∃ u v w, Bary u v w ∧ (t.at u v w).1.position = x) ∧ contains normals x = true := by
  have hcont : contains normals x = true ↔ Inside normals x := by
    simp [contains, Inside]
  rw [hcont]
  constructor
  · rintro ⟨T, hT, u', v', w', hb, rfl⟩
    obtain ⟨u, v, w, hb', he, hi⟩ := C45_sound normals t hT hb
    rw [he]; exact ⟨⟨u, v, w, hb', rfl⟩, hi⟩
  · rintro ⟨⟨u, v, w, hb, rfl⟩, hi⟩
    obtain ⟨T, hT, u', v', w', hb', he⟩ := C45_covers normals t hb hi
    exact ⟨T, hT, u', v', w', hb', by rw [he]⟩

/-- **C45 (size).** Clipping by `N` planes returns at most `N + 1` triangles (a polygon of at most `N + 3` vertices),
and none exactly when no point of the triangle is inside. -/
theorem C45_size (normals : List V3) (t : Triangle S) :
    (clipTriangle normals t).length ≤ normals.length + 1 ∧
    (clipTriangle normals t = [] ↔ ¬ ∃ u v w, Bary u v w ∧ Inside normals (t.at u v w).1.position) := by
  obtain ⟨hc, hlen, h3, hh⟩ := poly_spec normals t
  constructor
  · rw [clipTriangle_eq]
    cases h : poly normals t with
    | nil => simp [fan]
    | cons p l =>
      rw [h] at h3
      simp only [List.map_cons, fan, List.length_map, List.length_zip, List.length_tail]
      simp only [List.length_cons] at h3
      omega
  · constructor
    · rintro h ⟨u, v, w, hb, hi⟩
      obtain ⟨T, hT, _⟩ := C45_covers normals t hb hi
      rw [h] at hT; simp at hT
    · intro h
      by_contra hne
      obtain ⟨T, hT⟩ := List.exists_mem_of_ne_nil _ hne
      obtain ⟨u, v, w, hb, _, hi⟩ := C45_sound normals t hT (u' := 1) (v' := 0) (w' := 0)
        ⟨by norm_num, le_refl _, le_refl _, by norm_num⟩
      exact h ⟨u, v, w, hb, hi⟩

/-- Twice the vector area of a triangle. -/
def Triangle.area (t : Triangle S) : V3 :=
  V3.cross (t.v1.position - t.v0.position) (t.v2.position - t.v0.position)

theorem mkTriangle_area (t : Triangle S) (h : Bool) (a b c : Pt) :
    (mkTriangle h (Bt t a) (Bt t b) (Bt t c)).area = orient a b c * t.area := by
  obtain ⟨h1, h2, h3⟩ := cornersOf_vertex t
  unfold Triangle.area mkTriangle Bt B mixVertex
  rw [h1, h2, h3]
  ext <;> simp [V3.cross, orient] <;> ring

theorem poly_orient (normals : List V3) (t : Triangle S) {p l} {q : Pt × Pt} (hp : poly normals t = p :: l)
    (hq : q ∈ fanPairs l) : 0 ≤ orient p q.1 q.2 := by
  have hc := (poly_spec normals t).1
  rw [hp] at hc
  exact conv_triple (conv_sublist ((fanPairs_sublist hq).cons_cons p) hc)

/-- **C45 (winding).** Every returned triangle is oriented like the original: its vector area is a non-negative
multiple of the original's. -/
theorem C45_winding (normals : List V3) (t : Triangle S) {T : Triangle S} (hT : T ∈ clipTriangle normals t) :
    ∃ k : ℝ, 0 ≤ k ∧ T.area = k * t.area := by
  obtain ⟨p, l, q, hp, hq, rfl⟩ := (mem_clipTriangle normals t T).mp hT
  exact ⟨_, poly_orient normals t hp hq, mkTriangle_area t _ _ _ _⟩

/-- Positions determine barycentric coordinates in a non-degenerate triangle. -/
theorem at_injective (t : Triangle S) (hd : t.area ≠ V3.zero) (b b' : Pt)
    (h : (Bt t b).vertex.position = (Bt t b').vertex.position) : b = b' := by
  obtain ⟨h1, h2, h3⟩ := cornersOf_vertex t
  unfold Bt B mixVertex at h
  rw [h1, h2, h3] at h
  have hx := congrArg V3.x h
  have hy := congrArg V3.y h
  have hz := congrArg V3.z h
  simp only [V3.add_x, V3.add_y, V3.add_z, V3.hmul_x, V3.hmul_y, V3.hmul_z] at hx hy hz
  -- s e1 + r e2 = 0 with e1 × e2 ≠ 0
  set s := b.1 - b'.1 with hs
  set r := b.2 - b'.2 with hr
  have ex : s * (t.v1.position.x - t.v0.position.x) + r * (t.v2.position.x - t.v0.position.x) = 0 := by
    rw [hs, hr]; linear_combination hx
  have ey : s * (t.v1.position.y - t.v0.position.y) + r * (t.v2.position.y - t.v0.position.y) = 0 := by
    rw [hs, hr]; linear_combination hy
  have ez : s * (t.v1.position.z - t.v0.position.z) + r * (t.v2.position.z - t.v0.position.z) = 0 := by
    rw [hs, hr]; linear_combination hz
  have ax : s * t.area.x = 0 ∧ r * t.area.x = 0 := by
    simp only [Triangle.area, V3.cross, V3.sub_y, V3.sub_z]
    exact ⟨by linear_combination (t.v2.position.z - t.v0.position.z) * ey - (t.v2.position.y - t.v0.position.y) * ez,
      by linear_combination (t.v1.position.y - t.v0.position.y) * ez - (t.v1.position.z - t.v0.position.z) * ey⟩
  have ay : s * t.area.y = 0 ∧ r * t.area.y = 0 := by
    simp only [Triangle.area, V3.cross, V3.sub_x, V3.sub_z]
    exact ⟨by linear_combination (t.v2.position.x - t.v0.position.x) * ez - (t.v2.position.z - t.v0.position.z) * ex,
      by linear_combination (t.v1.position.z - t.v0.position.z) * ex - (t.v1.position.x - t.v0.position.x) * ez⟩
  have az : s * t.area.z = 0 ∧ r * t.area.z = 0 := by
    simp only [Triangle.area, V3.cross, V3.sub_x, V3.sub_y]
    exact ⟨by linear_combination (t.v2.position.y - t.v0.position.y) * ex - (t.v2.position.x - t.v0.position.x) * ey,
      by linear_combination (t.v1.position.x - t.v0.position.x) * ey - (t.v1.position.y - t.v0.position.y) * ex⟩
  have hne : t.area.x ≠ 0 ∨ t.area.y ≠ 0 ∨ t.area.z ≠ 0 := by
    by_contra hcon
    push Not at hcon
    apply hd; ext <;> simp [hcon, V3.zero]
  have hs0 : s = 0 ∧ r = 0 := by
    rcases hne with hh | hh | hh
    · exact ⟨(mul_eq_zero.mp ax.1).resolve_right hh, (mul_eq_zero.mp ax.2).resolve_right hh⟩
    · exact ⟨(mul_eq_zero.mp ay.1).resolve_right hh, (mul_eq_zero.mp ay.2).resolve_right hh⟩
    · exact ⟨(mul_eq_zero.mp az.1).resolve_right hh, (mul_eq_zero.mp az.2).resolve_right hh⟩
  ext
  · linarith [hs0.1]
  · linarith [hs0.2]

theorem fanPairs_pairwise : ∀ l : List Pt, (fanPairs l).Pairwise (fun q q' => [q.2, q'.1, q'.2].Sublist l ∨ q.2 = q'.1 ∧ [q.2, q'.2].Sublist l)
  | [] => by simp [fanPairs]
  | [_] => by simp [fanPairs]
  | a :: b :: l => by
    have ih := fanPairs_pairwise (b :: l)
    have e : fanPairs (a :: b :: l) = (a, b) :: fanPairs (b :: l) := by simp [fanPairs]
    rw [e, List.pairwise_cons]
    constructor
    · intro q' hq'
      have hs := fanPairs_sublist hq'
      cases l with
      | nil => simp [fanPairs] at hq'
      | cons c l =>
        have e' : fanPairs (b :: c :: l) = (b, c) :: fanPairs (c :: l) := by simp [fanPairs]
        rw [e'] at hq'
        rcases List.mem_cons.mp hq' with rfl | hq'
        · right; exact ⟨rfl, by simp⟩
        · left; exact ((fanPairs_sublist hq').cons_cons b).cons a
    · exact ih.imp (fun h => h.imp (fun h => h.cons a) (fun h => ⟨h.1, h.2.cons a⟩))

/-- **C45 (no overlap).** For a non-degenerate triangle, the interiors of the returned triangles are disjoint: no
interior point of one is a point of a later one. -/
theorem C45_no_overlap (normals : List V3) (t : Triangle S) (hd : t.area ≠ V3.zero) :
    (clipTriangle normals t).Pairwise (fun T T' => T.area ≠ V3.zero →
      ∀ u v w u' v' w' : ℝ, 0 < v → u + v + w = 1 → Bary u' v' w' →
        (T.at u v w).1.position ≠ (T'.at u' v' w').1.position) := by
  have hc := (poly_spec normals t).1
  rw [clipTriangle_eq]
  rcases hp : poly normals t with _ | ⟨p, l⟩
  · simp [fan]
  rw [hp] at hc
  have e : fan t.tangents.isSome ((p :: l).map (Bt t)) =
      (fanPairs l).map (fun q => mkTriangle t.tangents.isSome (Bt t p) (Bt t q.1) (Bt t q.2)) := by
    simp only [List.map_cons, fan]
    rw [← List.map_tail, List.zip_map, List.map_map]; rfl
  rw [e, List.pairwise_map]
  have hmem : (fanPairs l).Pairwise (fun q q' => q ∈ fanPairs l ∧ q' ∈ fanPairs l) := by
    rw [List.pairwise_iff_forall_sublist]
    intro a b h
    exact ⟨h.subset (by simp), h.subset (by simp)⟩
  refine ((fanPairs_pairwise l).and hmem).imp ?_
  rintro q q' ⟨hsub, hq, hq'⟩ hT u v w u' v' w' hv hs hb' heq
  rw [mkTriangle_at _ _ _ _ _ _ _ hs, mkTriangle_at _ _ _ _ _ _ _ hb'.2.2.2, at_eq, at_eq] at heq
  have hx := at_injective t hd _ _ heq
  rw [mkTriangle_area] at hT
  have h0 : 0 ≤ orient p q.1 q.2 := conv_triple (conv_sublist ((fanPairs_sublist hq).cons_cons p) hc)
  have hpos : 0 < orient p q.1 q.2 := by
    rcases h0.eq_or_lt with h | h
    · exact absurd (by rw [← h]; ext <;> simp [V3.zero]) hT
    · exact h
  rcases hsub with hsub | ⟨h1, h2⟩
  · exact fan_disjoint hc hsub hpos hv hb'.2.1 hb'.2.2.1 hs hb'.2.2.2 rfl hx
  · -- adjacent triangles share the edge p q.2
    have hbd : 0 ≤ orient p q.2 q'.2 := conv_triple (conv_sublist (h2.cons_cons p) hc)
    have e1 : orient p (u • p + v • q.1 + w • q.2) q.2 = v * orient p q.1 q.2 := by
      simp only [orient, Prod.fst_add, Prod.snd_add, Prod.smul_fst, Prod.smul_snd, smul_eq_mul]
      have : u = 1 - v - w := by linarith
      subst this; ring
    have e2 : orient p (u' • p + v' • q'.1 + w' • q'.2) q.2 = -(w' * orient p q.2 q'.2) := by
      rw [← h1]
      simp only [orient, Prod.fst_add, Prod.snd_add, Prod.smul_fst, Prod.smul_snd, smul_eq_mul]
      have : u' = 1 - v' - w' := by linarith [hb'.2.2.2]
      subst this; ring
    rw [hx, e2] at e1
    have := mul_pos hv hpos
    have := mul_nonneg hb'.2.2.1 hbd
    linarith

/-- `contains` is membership in all half spaces. -/
theorem C45_contains (normals : List V3) (d : V3) : contains normals d = true ↔ ∀ n ∈ normals, 0 ≤ V3.dot n d := by
  simp [contains]

/-! A concrete case: the triangle with corners (-1,0,1), (1,0,1), (0,2,1) cut by the plane x ≥ 0. Its point
(1/4, 1/2, 1) (weights 1/4, 1/2, 1/4) is inside, its point (-1/4, 1/2, 1) is not. -/
def exTri : Triangle ℝ :=
  ⟨⟨⟨-1, 0, 1⟩, 0, ⟨0, 0, 1⟩, (0, 0)⟩, ⟨⟨1, 0, 1⟩, 1, ⟨0, 0, 1⟩, (1, 0)⟩, ⟨⟨0, 2, 1⟩, 1, ⟨0, 0, 1⟩, (0, 1)⟩, none⟩

example : Bary (1 / 4) (1 / 2) (1 / 4) ∧ Inside [⟨1, 0, 0⟩] (exTri.at (1 / 4) (1 / 2) (1 / 4)).1.position ∧
    ¬ Inside [⟨1, 0, 0⟩] (exTri.at (1 / 2) (1 / 4) (1 / 4)).1.position ∧ exTri.area ≠ V3.zero := by
  refine ⟨⟨by norm_num, by norm_num, by norm_num, by norm_num⟩, ?_, ?_, ?_⟩
  · simp [Inside, exTri, Triangle.at, mixVertex, V3.dot]; norm_num
  · simp [Inside, exTri, Triangle.at, mixVertex, V3.dot]; norm_num
  · intro h; have := congrArg V3.z h
    simp [exTri, Triangle.area, V3.cross, V3.zero] at this

example : ∃ T ∈ clipTriangle [⟨1, 0, 0⟩] exTri, ∃ u v w, Bary u v w ∧ (T.at u v w).1.position = ⟨1 / 4, 1 / 2, 1⟩ := by
  obtain ⟨T, hT, u, v, w, hb, h⟩ := C45_covers [⟨1, 0, 0⟩] exTri (u := 1 / 4) (v := 1 / 2) (w := 1 / 4)
    ⟨by norm_num, by norm_num, by norm_num, by norm_num⟩
    (by simp [Inside, exTri, Triangle.at, mixVertex, V3.dot]; norm_num)
  refine ⟨T, hT, u, v, w, hb, ?_⟩
  rw [h]
  ext <;> simp [exTri, Triangle.at, mixVertex] <;> norm_num

end
end Huira.Frustum
