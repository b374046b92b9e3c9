import Verif.Camera.Geometry
import Verif.Image.Props
set_option linter.unusedSimpArgs false
/-!
# C37, C38: projection, ray casting and the field of view
-/
namespace Huira.Camera
noncomputable section
open Classical V3

/-! ### C37 -/

theorem dir_ne_zero (c : Lens) (u v : ℝ) : c.pixelToDirection u v ≠ V3.zero := by
  intro h
  have := congrArg V3.z h
  unfold Lens.pixelToDirection at this
  cases hb : c.blender <;> simp [hb, V3.zero] at this

theorem project_smul (c : Lens) (s : ℝ) (hs : s ≠ 0) (p : V3) : c.project (s * p) = c.project p := by
  have hd : c.depth (s * p) = s * c.depth p := by
    unfold Lens.depth; split <;> simp
  unfold Lens.project
  rw [hd]
  simp only [hmul_x, hmul_y]
  rw [mul_div_mul_left _ _ hs]
  have : ∀ q : ℝ, q * (s * p.y) = s * (q * p.y) := fun q => by ring
  rw [this, mul_div_mul_left _ _ hs]

theorem project_pixelToDirection (c : Lens) (hd : c.distortion = none) (hx : c.fx ≠ 0) (hy : c.fy ≠ 0) (u v : ℝ) :
    c.project (c.pixelToDirection u v) = (u, v) := by
  unfold Lens.project Lens.pixelToDirection Lens.depth
  rw [hd]
  cases c.blender
  · simp only [Bool.false_eq_true, if_false, div_one, one_mul]
    ext <;> simp <;> field_simp <;> ring
  · simp only [if_true, neg_neg, div_one]
    ext <;> simp <;> field_simp <;> ring

/-- **C37, first half.** For every intrinsics (with non-zero focal lengths), every pixel coordinate and every depth: the
point at any distance along the ray cast through a pixel coordinate projects to that coordinate, and lies in front of
the camera. -/
theorem C37_project_of_ray (c : Lens) (hd : c.distortion = none) (hx : c.fx ≠ 0) (hy : c.fy ≠ 0) (u v t : ℝ)
    (ht : 0 < t) : c.project (t * c.castRay u v) = (u, v) ∧ 0 < c.depth (t * c.castRay u v) := by
  have hne := dir_ne_zero c u v
  have hl := V3.len_pos hne
  have hr : c.castRay u v = (1 / V3.len (c.pixelToDirection u v)) * c.pixelToDirection u v := by
    unfold Lens.castRay; rw [hd]; rfl
  have hk : 0 < 1 / V3.len (c.pixelToDirection u v) := by positivity
  constructor
  · rw [project_smul c t ht.ne', hr, project_smul c _ hk.ne']
    exact project_pixelToDirection c hd hx hy u v
  · rw [hr]
    unfold Lens.depth Lens.pixelToDirection
    rw [hd]
    cases hb : c.blender <;> simp only [Bool.false_eq_true, if_false, if_true, hmul_z]
    · rw [mul_one]
      simp only [Lens.pixelToDirection, hd, hb, Bool.false_eq_true, if_false] at hk
      exact mul_pos ht hk
    · simp only [Lens.pixelToDirection, hd, hb, if_true] at hk
      have := mul_pos ht hk
      linarith

/-- **C37, second half.** The ray cast through the projection of any point in front of the camera points at that point. -/
theorem C37_ray_of_project (c : Lens) (hd : c.distortion = none) (hx : c.fx ≠ 0) (hy : c.fy ≠ 0) (p : V3)
    (hp : 0 < c.depth p) : c.castRay (c.project p).1 (c.project p).2 = V3.normalize p := by
  have key : c.pixelToDirection (c.project p).1 (c.project p).2 = (1 / c.depth p) * p := by
    unfold Lens.project Lens.pixelToDirection
    rw [hd]
    unfold Lens.depth at hp ⊢
    cases hb : c.blender <;> rw [hb] at hp <;> simp only [Bool.false_eq_true, if_false, if_true] at hp ⊢
    · have hz : p.z ≠ 0 := hp.ne'
      ext <;> simp <;> field_simp <;> ring
    · have hz : p.z ≠ 0 := by intro h; rw [h] at hp; simp at hp
      ext <;> simp <;> field_simp <;> ring
  have hne : p ≠ V3.zero := by
    rintro rfl
    unfold Lens.depth V3.zero at hp
    split at hp <;> simp at hp
  unfold Lens.castRay
  rw [hd]
  simp only
  rw [key]
  have hs : 0 < 1 / c.depth p := by positivity
  rw [V3.normalize_eq, V3.normalize_eq]
  have hlen : V3.len ((1 / c.depth p) * p) = (1 / c.depth p) * V3.len p := by
    unfold V3.len
    rw [V3.dot_smul_left, V3.dot_smul_right, ← mul_assoc, Real.sqrt_mul (mul_self_nonneg _),
      Real.sqrt_mul_self hs.le]
  rw [hlen]
  have hl := V3.len_pos hne
  ext <;> simp <;> field_simp

/-- **C37, cast rays are unit vectors**, so ray parameters are distances. -/
theorem C37_unit (c : Lens) (hd : c.distortion = none) (u v : ℝ) :
    V3.dot (c.castRay u v) (c.castRay u v) = 1 := by
  unfold Lens.castRay; rw [hd]; exact V3.dot_normalize (dir_ne_zero c u v)

theorem sampleField_grid (w h x y : Nat) (hx : x < w) (hy : y < h) (hw : 1 < w) (hh : 1 < h) (f : Int → Int → V3) :
    sampleField w h f ((x : ℝ) / ((w : ℝ) - 1)) ((y : ℝ) / ((h : ℝ) - 1)) = some (f x y) := by
  unfold sampleField
  rw [(Image.C18_grid_points w h x y hx hy hw hh _).1, (Image.C18_grid_points w h x y hx hy hw hh _).1,
    (Image.C18_grid_points w h x y hx hy hw hh _).1]
  rfl

theorem normalize_normalize {p : V3} (h : p ≠ V3.zero) : V3.normalize (V3.normalize p) = V3.normalize p := by
  have := V3.dot_normalize h
  rw [V3.normalize_eq (V3.normalize p)]
  have hl : V3.len (V3.normalize p) = 1 := by unfold V3.len; rw [this]; exact Real.sqrt_one
  rw [hl]
  ext <;> simp

/-- **C37 with distortion.** With a lens distortion set (and the direction field computed for the current settings) the
round trip holds at every integer pixel whose undistorted coordinate is mapped back by `distort`. -/
theorem C37_distorted_pixels (c : Lens) (d : Distortion) (hd : c.distortion = some d) (hx : c.fx ≠ 0) (hy : c.fy ≠ 0)
    (x y : Nat) (hxr : x < c.resX) (hyr : y < c.resY) (hw : 1 < c.resX) (hh : 1 < c.resY) (t : ℝ) (ht : 0 < t)
    (hinv : d.distort (d.undistort (((x : ℝ) - c.cx) / c.fx, ((y : ℝ) - c.cy) / c.fy)) =
      (((x : ℝ) - c.cx) / c.fx, ((y : ℝ) - c.cy) / c.fy)) :
    c.project (t * c.castRay x y) = ((x : ℝ), (y : ℝ)) := by
  have hne := dir_ne_zero c x y
  have hl := V3.len_pos hne
  have hr : c.castRay x y = V3.normalize (c.pixelToDirection x y) := by
    unfold Lens.castRay
    rw [hd]
    simp only
    rw [sampleField_grid c.resX c.resY x y hxr hyr hw hh]
    simp only
    unfold Lens.field
    push_cast
    exact normalize_normalize hne
  have hk : 0 < 1 / V3.len (c.pixelToDirection x y) := by positivity
  rw [project_smul c t ht.ne', hr, V3.normalize_eq, project_smul c _ hk.ne']
  unfold Lens.project Lens.pixelToDirection Lens.depth
  rw [hd]
  cases c.blender
  · simp only [Bool.false_eq_true, if_false, div_one, one_mul]
    rw [hinv]
    ext <;> simp <;> field_simp <;> ring
  · simp only [if_true, neg_neg, div_one]
    have : ∀ q : ℝ, -1 * -q = q := fun q => by ring
    rw [this, hinv]
    ext <;> simp <;> field_simp <;> ring

/-- A 640×480 camera in the Blender convention: the hypotheses of the C37 theorems hold and pixel (10, 20) round-trips. -/
def exampleLens : Lens := ⟨500, 480, 320, 240, 640, 480, true, none⟩
example : exampleLens.project ((7 : ℝ) * exampleLens.castRay 10 20) = (10, 20) :=
  (C37_project_of_ray exampleLens rfl (by norm_num [exampleLens]) (by norm_num [exampleLens]) 10 20 7 (by norm_num)).1
example : (0 : ℝ) < exampleLens.depth ⟨1, 2, -3⟩ := by norm_num [exampleLens, Lens.depth]

/-! ### C38 -/

/-- What "in the field of view" means: in front of the camera, with the projection inside the pixel rectangle
`[0, resX] × [0, resY]`. -/
def InView (c : Lens) (p : V3) : Prop :=
  0 < c.depth p ∧ 0 ≤ (c.project p).1 ∧ (c.project p).1 ≤ c.resX ∧ 0 ≤ (c.project p).2 ∧ (c.project p).2 ≤ c.resY

/-- **C38, full statement**: for every undistorted camera with positive focal lengths and resolution, a point (not at the
camera) is in the frustum exactly when it is in view. -/
def C38_full : Prop :=
  ∀ c : Lens, c.distortion = none → 0 < c.fx → 0 < c.fy → 0 < c.resX → 0 < c.resY →
    ∀ p : V3, 1e-12 ≤ V3.dot p p → (c.inFov p ↔ InView c p)

theorem extrema_invariant (zd : V3) (P : V3 → Prop) (l : List V3) :
    ∀ acc : V3 × ℝ, P acc.1 → (∀ d ∈ l, P d) → P (l.foldl (extremaStep zd) acc).1 := by
  induction l with
  | nil => intro acc h _; exact h
  | cons d ds ih =>
    intro acc h hd
    refine ih _ ?_ (fun e he => hd e (List.mem_cons_of_mem _ he))
    unfold extremaStep
    split
    · exact hd d List.mem_cons_self
    · exact h

/-- The loop selects one of the visited directions. -/
theorem extrema_mem (zd : V3) (P : V3 → Prop) (l : List V3) (hne : l ≠ [])
    (hlt : ∀ d ∈ l, V3.dot d zd < 100) (hP : ∀ d ∈ l, P d) : P (extrema zd l) := by
  cases l with
  | nil => exact absurd rfl hne
  | cons d ds =>
    refine extrema_invariant zd P ds _ ?_ (fun e he => hP e (List.mem_cons_of_mem _ he))
    unfold extremaStep
    rw [if_pos (hlt d List.mem_cons_self)]
    exact hP d List.mem_cons_self

theorem zdir_unit (c : Lens) : V3.dot c.zdir c.zdir = 1 := by
  unfold Lens.zdir; split <;> norm_num [V3.dot]

theorem unit_dot_lt (a b : V3) (ha : V3.dot a a = 1) (hb : V3.dot b b = 1) : V3.dot a b < 100 := by
  have := V3.cauchy_schwarz a b
  rw [ha, hb] at this
  nlinarith

/-- Shape of an undistorted cast ray. -/
theorem castRay_shape (c : Lens) (hd : c.distortion = none) (u v : ℝ) :
    ∃ k > 0, c.castRay u v = ⟨k * ((u - c.cx) / c.fx), (if c.blender then -1 else 1) * k * ((v - c.cy) / c.fy),
      (if c.blender then -1 else 1) * k⟩ := by
  refine ⟨1 / V3.len (c.pixelToDirection u v), by have := V3.len_pos (dir_ne_zero c u v); positivity, ?_⟩
  unfold Lens.castRay
  rw [hd]
  simp only
  rw [V3.normalize_eq]
  generalize 1 / V3.len (c.pixelToDirection u v) = k
  unfold Lens.pixelToDirection
  rw [hd]
  cases c.blender
  · simp only [Bool.false_eq_true, if_false]; ext <;> simp
  · simp only [if_true]; ext <;> simp <;> ring

theorem rejects_normalize (a p : V3) : rejects (V3.normalize? a) p ↔ V3.dot a p < 0 := by
  unfold rejects V3.normalize?
  by_cases h : V3.dot a a = 0
  · rw [if_pos h]
    rw [V3.dot_self_eq_zero] at h
    subst h
    simp [V3.dot, V3.zero]
  · rw [if_neg h]
    exact V3.dot_normalize_neg_iff (fun e => h (V3.dot_self_eq_zero.mpr e)) p

/-- The four side planes of an undistorted camera, by edge list. -/
theorem side_left (c : Lens) (hd : c.distortion = none) (l : List V3) (hne : l ≠ []) (u : ℝ)
    (hl : ∀ d ∈ l, ∃ v, d = c.castRay u v) (p : V3) :
    (rejects (V3.normalize? (V3.cross c.ydir (extrema c.zdir l))) p ↔ p.x < (u - c.cx) / c.fx * c.depth p) ∧
    (rejects (V3.normalize? (V3.cross (extrema c.zdir l) c.ydir)) p ↔ (u - c.cx) / c.fx * c.depth p < p.x) := by
  rw [rejects_normalize, rejects_normalize]
  refine extrema_mem c.zdir (fun e => (V3.dot (V3.cross c.ydir e) p < 0 ↔ p.x < (u - c.cx) / c.fx * c.depth p) ∧
    (V3.dot (V3.cross e c.ydir) p < 0 ↔ (u - c.cx) / c.fx * c.depth p < p.x)) l hne ?_ ?_
  · intro d hdm
    obtain ⟨v, rfl⟩ := hl d hdm
    exact unit_dot_lt _ _ (C37_unit c hd u v) (zdir_unit c)
  · intro d hdm
    obtain ⟨v, rfl⟩ := hl d hdm
    obtain ⟨k, hk, he⟩ := castRay_shape c hd u v
    rw [he]
    generalize (u - c.cx) / c.fx = a
    unfold V3.dot V3.cross Lens.ydir Lens.depth
    cases c.blender
    · simp only [Bool.false_eq_true, if_false]
      constructor
      · constructor <;> intro h <;> nlinarith
      · constructor <;> intro h <;> nlinarith
    · simp only [if_true]
      constructor
      · constructor <;> intro h <;> nlinarith
      · constructor <;> intro h <;> nlinarith

theorem side_top (c : Lens) (hd : c.distortion = none) (l : List V3) (hne : l ≠ []) (v : ℝ)
    (hl : ∀ d ∈ l, ∃ u, d = c.castRay u v) (p : V3) :
    (rejects (V3.normalize? (V3.cross (extrema c.zdir l) xdir)) p ↔
      (if c.blender then -1 else 1) * p.y < (v - c.cy) / c.fy * c.depth p) ∧
    (rejects (V3.normalize? (V3.cross xdir (extrema c.zdir l))) p ↔
      (v - c.cy) / c.fy * c.depth p < (if c.blender then -1 else 1) * p.y) := by
  rw [rejects_normalize, rejects_normalize]
  refine extrema_mem c.zdir (fun e =>
    (V3.dot (V3.cross e xdir) p < 0 ↔ (if c.blender then -1 else 1) * p.y < (v - c.cy) / c.fy * c.depth p) ∧
    (V3.dot (V3.cross xdir e) p < 0 ↔ (v - c.cy) / c.fy * c.depth p < (if c.blender then -1 else 1) * p.y)) l hne ?_ ?_
  · intro d hdm
    obtain ⟨u, rfl⟩ := hl d hdm
    exact unit_dot_lt _ _ (C37_unit c hd u v) (zdir_unit c)
  · intro d hdm
    obtain ⟨u, rfl⟩ := hl d hdm
    obtain ⟨k, hk, he⟩ := castRay_shape c hd u v
    rw [he]
    generalize (v - c.cy) / c.fy = a
    unfold V3.dot V3.cross xdir Lens.depth
    cases c.blender
    · simp only [Bool.false_eq_true, if_false]
      constructor
      · constructor <;> intro h <;> nlinarith
      · constructor <;> intro h <;> nlinarith
    · simp only [if_true]
      constructor
      · constructor <;> intro h <;> nlinarith
      · constructor <;> intro h <;> nlinarith

theorem rejects_zdir (c : Lens) (p : V3) : rejects (some c.zdir) p ↔ c.depth p < 0 := by
  unfold rejects Lens.zdir Lens.depth V3.dot
  cases c.blender <;> simp

theorem project_fst (c : Lens) (hd : c.distortion = none) (p : V3) : (c.project p).1 = c.fx * (p.x / c.depth p) + c.cx := by
  unfold Lens.project; rw [hd]
theorem project_snd (c : Lens) (hd : c.distortion = none) (p : V3) :
    (c.project p).2 = c.fy * ((if c.blender then -1 else 1) * p.y / c.depth p) + c.cy := by
  unfold Lens.project; rw [hd]

theorem ge_pixel {f cc D X u : ℝ} (hf : 0 < f) (hD : 0 < D) : ¬ X < (u - cc) / f * D ↔ u ≤ f * (X / D) + cc := by
  rw [not_lt, ← le_div_iff₀ hD, div_le_iff₀ hf]
  constructor <;> intro h <;> linarith
theorem le_pixel {f cc D X u : ℝ} (hf : 0 < f) (hD : 0 < D) : ¬ (u - cc) / f * D < X ↔ f * (X / D) + cc ≤ u := by
  rw [not_lt, ← div_le_iff₀ hD, le_div_iff₀ hf]
  constructor <;> intro h <;> linarith

/-- **C38 (partial).** For every undistorted camera with positive focal lengths and at least three rows the frustum is
exactly: not at the camera, in front of it, and projecting into the rectangle `[0, resX-1] × [0, resY-1]` spanned by the
upper-left corners of the edge pixels. Missing from the full statement: the last pixel column and row
(`C38_violated`) and fewer than three rows. -/
theorem C38_frustum_partial (c : Lens) (hd : c.distortion = none) (hfx : 0 < c.fx) (hfy : 0 < c.fy) (hrx : 0 < c.resX)
    (hry : 3 ≤ c.resY) (p : V3) :
    c.inFov p ↔ 1e-12 ≤ V3.dot p p ∧ 0 < c.depth p ∧ 0 ≤ (c.project p).1 ∧ (c.project p).1 ≤ (c.resX : ℝ) - 1 ∧
      0 ≤ (c.project p).2 ∧ (c.project p).2 ≤ (c.resY : ℝ) - 1 := by
  have ne2 : List.range (c.resY - 2) ≠ [] := by
    intro h; have := congrArg List.length h; simp at this; omega
  have neX : List.range c.resX ≠ [] := by
    intro h; have := congrArg List.length h; simp at this; omega
  have hL := (side_left c hd (leftEdge c.castRay c.resY) (by simp only [topEdge, bottomEdge, leftEdge, rightEdge]; exact fun h => ne2 (List.map_eq_nil_iff.mp h)) 0
    (by intro d hdm; simp only [leftEdge, List.mem_map] at hdm; obtain ⟨j, _, rfl⟩ := hdm; exact ⟨_, rfl⟩) p).1
  have hR := (side_left c hd (rightEdge c.castRay c.resX c.resY) (by simp only [topEdge, bottomEdge, leftEdge, rightEdge]; exact fun h => ne2 (List.map_eq_nil_iff.mp h)) ((c.resX : ℝ) - 1)
    (by intro d hdm; simp only [rightEdge, List.mem_map] at hdm; obtain ⟨j, _, rfl⟩ := hdm; exact ⟨_, rfl⟩) p).2
  have hT := (side_top c hd (topEdge c.castRay c.resX) (by simp only [topEdge, bottomEdge, leftEdge, rightEdge]; exact fun h => neX (List.map_eq_nil_iff.mp h)) 0
    (by intro d hdm; simp only [topEdge, List.mem_map] at hdm; obtain ⟨j, _, rfl⟩ := hdm; exact ⟨_, rfl⟩) p).1
  have hB := (side_top c hd (bottomEdge c.castRay c.resX c.resY) (by simp only [topEdge, bottomEdge, leftEdge, rightEdge]; exact fun h => neX (List.map_eq_nil_iff.mp h)) ((c.resY : ℝ) - 1)
    (by intro d hdm; simp only [bottomEdge, List.mem_map] at hdm; obtain ⟨j, _, rfl⟩ := hdm; exact ⟨_, rfl⟩) p).2
  unfold Lens.inFov contains Lens.frustum
  simp only [List.mem_cons, List.not_mem_nil, or_false, forall_eq_or_imp, forall_eq]
  rw [hL, hR, hT, hB, rejects_zdir, not_lt (a := V3.dot p p), project_fst c hd, project_snd c hd]
  constructor
  · rintro ⟨hp, hz, h1, h2, h3, h4⟩
    rw [not_lt] at hz
    rcases hz.lt_or_eq with hpos | h0
    · exact ⟨hp, hpos, (ge_pixel hfx hpos).mp h1, (le_pixel hfx hpos).mp h2, (ge_pixel hfy hpos).mp h3,
        (le_pixel hfy hpos).mp h4⟩
    · exfalso
      rw [← h0, mul_zero, not_lt] at h1 h2 h3 h4
      have hxz : p.x = 0 := le_antisymm h2 h1
      have hyz : p.y = 0 := by
        cases hb : c.blender <;> rw [hb] at h3 h4 <;> simp at h3 h4 <;> linarith
      have hzz : p.z = 0 := by
        unfold Lens.depth at h0
        cases hb : c.blender <;> rw [hb] at h0 <;> simp at h0 <;> linarith
      unfold V3.dot at hp
      rw [hxz, hyz, hzz] at hp
      norm_num at hp
  · rintro ⟨hp, hpos, h1, h2, h3, h4⟩
    exact ⟨hp, not_lt.mpr hpos.le, (ge_pixel hfx hpos).mpr h1, (le_pixel hfx hpos).mpr h2,
      (ge_pixel hfy hpos).mpr h3, (le_pixel hfy hpos).mpr h4⟩

/-- Consequence: nothing outside the view is accepted, for at least three rows. -/
theorem C38_sound_partial (c : Lens) (hd : c.distortion = none) (hfx : 0 < c.fx) (hfy : 0 < c.fy) (hrx : 0 < c.resX)
    (hry : 3 ≤ c.resY) (p : V3) (h : c.inFov p) : InView c p := by
  obtain ⟨_, h0, h1, h2, h3, h4⟩ := (C38_frustum_partial c hd hfx hfy hrx hry p).mp h
  exact ⟨h0, h1, by linarith, h3, by linarith⟩

/-- C38, `project_point`: it answers exactly for the points of the frustum, with their projection; so every point it
answers for is in front of the camera and its pixel coordinates are inside the image. -/
theorem C38_project_partial (c : Lens) (hd : c.distortion = none) (hfx : 0 < c.fx) (hfy : 0 < c.fy) (hrx : 0 < c.resX)
    (hry : 3 ≤ c.resY) (p : V3) :
    (c.inFov p → c.tryProject p = some (c.project p)) ∧ (¬ c.inFov p → c.tryProject p = none) ∧
    (∀ q, c.tryProject p = some q → 0 < c.depth p ∧ 0 ≤ q.1 ∧ q.1 ≤ (c.resX : ℝ) - 1 ∧ 0 ≤ q.2 ∧ q.2 ≤ (c.resY : ℝ) - 1) := by
  unfold Lens.tryProject
  refine ⟨fun h => by rw [if_pos h], fun h => by rw [if_neg h], ?_⟩
  intro q hq
  by_cases h : c.inFov p
  · rw [if_pos h] at hq
    obtain rfl := Option.some.inj hq
    exact ((C38_frustum_partial c hd hfx hfy hrx hry p).mp h).2
  · rw [if_neg h] at hq; cases hq

/-- A point in the last pixel column of a 4×4 camera is in view but outside the frustum. -/
def lens4 : Lens := ⟨1, 1, 2, 2, 4, 4, false, none⟩
theorem C38_last_column_lost : InView lens4 ⟨1.5, 0, 1⟩ ∧ ¬ lens4.inFov ⟨1.5, 0, 1⟩ := by
  constructor
  · norm_num [InView, lens4, Lens.depth, Lens.project]
  · rw [C38_frustum_partial lens4 rfl (by norm_num [lens4]) (by norm_num [lens4]) (by norm_num [lens4])
      (by norm_num [lens4])]
    norm_num [lens4, Lens.depth, Lens.project]

/-- **C38 is violated**: the field of view stops one pixel short of the right and bottom borders. -/
theorem C38_violated : ¬ C38_full := by
  intro h
  have := h lens4 rfl (by norm_num [lens4]) (by norm_num [lens4]) (by norm_num [lens4]) (by norm_num [lens4])
    ⟨1.5, 0, 1⟩ (by norm_num [V3.dot])
  exact C38_last_column_lost.2 (this.mpr C38_last_column_lost.1)

/-- **C38, thin sensors.** With one or two rows the left and right planes are missing altogether: every point directly
ahead in y is "in the field of view" however far to the side it is. -/
theorem C38_thin_sensor_violated (c : Lens) (hd : c.distortion = none) (hfy : 0 < c.fy)
    (hrx : 0 < c.resX) (hry : c.resY ≤ 2) (p : V3) (hp : 1e-12 ≤ V3.dot p p) (hz : 0 < c.depth p)
    (h3 : 0 ≤ (c.project p).2) (h4 : (c.project p).2 ≤ (c.resY : ℝ) - 1) : c.inFov p := by
  have neX : List.range c.resX ≠ [] := by
    intro h; have := congrArg List.length h; simp at this; omega
  have hT := (side_top c hd (topEdge c.castRay c.resX) (by simp only [topEdge, bottomEdge, leftEdge, rightEdge]; exact fun h => neX (List.map_eq_nil_iff.mp h)) 0
    (by intro d hdm; simp only [topEdge, List.mem_map] at hdm; obtain ⟨j, _, rfl⟩ := hdm; exact ⟨_, rfl⟩) p).1
  have hB := (side_top c hd (bottomEdge c.castRay c.resX c.resY) (by simp only [topEdge, bottomEdge, leftEdge, rightEdge]; exact fun h => neX (List.map_eq_nil_iff.mp h)) ((c.resY : ℝ) - 1)
    (by intro d hdm; simp only [bottomEdge, List.mem_map] at hdm; obtain ⟨j, _, rfl⟩ := hdm; exact ⟨_, rfl⟩) p).2
  have e0 : c.resY - 2 = 0 := by omega
  have hz0 : V3.dot V3.zero p = 0 := by simp [V3.dot, V3.zero]
  have c1 : V3.cross c.ydir V3.zero = V3.zero := by ext <;> simp [V3.cross, V3.zero]
  have c2 : V3.cross V3.zero c.ydir = V3.zero := by ext <;> simp [V3.cross, V3.zero]
  have hL : ¬ rejects (V3.normalize? (V3.cross c.ydir (extrema c.zdir (leftEdge c.castRay c.resY)))) p := by
    rw [rejects_normalize]
    simp only [leftEdge, e0, List.range_zero, List.map_nil, extrema, List.foldl_nil]
    rw [c1, hz0]; exact lt_irrefl _
  have hR : ¬ rejects (V3.normalize? (V3.cross (extrema c.zdir (rightEdge c.castRay c.resX c.resY)) c.ydir)) p := by
    rw [rejects_normalize]
    simp only [rightEdge, e0, List.range_zero, List.map_nil, extrema, List.foldl_nil]
    rw [c2, hz0]; exact lt_irrefl _
  unfold Lens.inFov contains Lens.frustum
  simp only [List.mem_cons, List.not_mem_nil, or_false, forall_eq_or_imp, forall_eq]
  rw [project_snd c hd] at h3 h4
  refine ⟨not_lt.mpr hp, ?_, hL, hR, ?_, ?_⟩
  · rw [rejects_zdir]; exact not_lt.mpr hz.le
  · rw [hT]; exact (ge_pixel hfy hz).mpr h3
  · rw [hB]; exact (le_pixel hfy hz).mpr h4

example : (⟨1, 1, 2, 1, 4, 2, false, none⟩ : Lens).inFov ⟨1000, 0, 1⟩ :=
  C38_thin_sensor_violated _ rfl (by norm_num) (by norm_num) (by norm_num) _ (by norm_num [V3.dot])
    (by norm_num [Lens.depth]) (by norm_num [Lens.project, Lens.depth]) (by norm_num [Lens.project, Lens.depth])
example : lens4.inFov ⟨0.5, 0.5, 1⟩ := by
  rw [C38_frustum_partial lens4 rfl (by norm_num [lens4]) (by norm_num [lens4]) (by norm_num [lens4]) (by norm_num [lens4])]
  norm_num [lens4, Lens.depth, Lens.project, V3.dot]

end
end Huira.Camera
