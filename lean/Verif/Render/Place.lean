import Verif.Camera.Aperture
import Verif.Camera.GeometryProps
import Verif.Render.PointsProps
set_option linter.unusedSimpArgs false
/-!
# C140: where point sources appear

A point of a surface shows in the pixels whose camera rays reach it: `path_trace_` (`include/huira_impl/render/renderer.ipp`
lines 176-180) sends the rays of pixel `(x, y)` through `(x + u, y + v)` with `u`, `v` in [0, 1). A point source in the same
direction is drawn by `render_unresolved_` (renderer.ipp 901-967) around its projection. The pictures of both are compared here,
with the tiles of `Render/PointsModel` and the kernels of `Camera/Aperture`.
-/
namespace Huira.Place
open Huira.Points Huira.Camera
noncomputable section
open Classical Finset

/-! ### Model: which kernel a sub-pixel position gets -/

/-- The bank of a fraction, `std::clamp(static_cast<int>(u * banks), 0, banks - 1)` (psf.ipp 55-60, aperture.ipp 50-55). -/
def pickBank (banks : Nat) (u : ℝ) : Nat := (max 0 (min ⌊u * banks⌋ ((banks : Int) - 1))).toNat

/-- A frame whose camera has a PSF in use: `get_kernel(frac_x, frac_y)` (psf.ipp 48-63, renderer.ipp 934), with the stamp
radius of the PSF (renderer.ipp 670). -/
def psfFrame (W H : Int) (radius banks res : Nat) (lut : Nat → Nat → ℝ) : Frame :=
  ⟨W, H, radius, fun u v kx ky => psfKernel radius banks res lut (pickBank banks u) (pickBank banks v) kx.toNat ky.toNat⟩

/-- A frame whose camera is out of focus by `r` pixels: `get_defocus_kernel(frac_x, frac_y)` (aperture.ipp 42-58,
renderer.ipp 910-911), with its half extent as stamp radius (renderer.ipp 668). -/
def defocusFrame (W H : Int) (r : ℝ) (banks : Nat) : Frame :=
  ⟨W, H, halfExtent r, fun u v kx ky => defocusKernel r banks (pickBank banks u) (pickBank banks v) kx.toNat ky.toNat⟩

/-! ### Specification -/

/-- A camera ray of pixel `(X, Y)` has the direction of the point `p`. -/
def Sees (c : Lens) (X Y : Int) (p : V3) : Prop :=
  ∃ u v : ℝ, 0 ≤ u ∧ u < 1 ∧ 0 ≤ v ∧ v < 1 ∧ c.castRay (X + u) (Y + v) = V3.normalize p

/-- The picture is the camera's, and the source is where the camera projects the point `p`. -/
def At (c : Lens) (f : Frame) (i : Item) (p : V3) : Prop :=
  f.W = c.resX ∧ f.H = c.resY ∧ i.x = (c.project p).1 ∧ i.y = (c.project p).2 ∧ 0 < c.depth p

/-- The property at full strength, for a camera without a PSF: all the light of a point source is in the pixel that sees
it. -/
def C140_full : Prop :=
  ∀ (c : Lens) (f : Frame) (i : Item) (p : V3) (X Y : Int), c.distortion = none → 0 < c.fx → 0 < c.fy → At c f i p →
    f.S = 0 → i.visible = true → 0 ≤ X → X < f.W → 0 ≤ Y → Y < f.H → Sees c X Y p → image f [i] X Y = i.power

/-! ### Surfaces -/

/-- **C140.** The pixel that sees a point in front of a pinhole camera is the one its projection falls in. -/
theorem C140_surface (c : Lens) (hd : c.distortion = none) (hx : c.fx ≠ 0) (hy : c.fy ≠ 0) (p : V3) (hp : 0 < c.depth p) (X Y : Int) :
    Sees c X Y p ↔ X = ⌊(c.project p).1⌋ ∧ Y = ⌊(c.project p).2⌋ := by
  constructor
  · rintro ⟨u, v, u0, u1, v0, v1, h⟩
    have e := C37_project_of_ray c hd hx hy (X + u) (Y + v) 1 one_pos
    have n : p ≠ V3.zero := by
      rintro rfl
      unfold Lens.depth at hp
      cases hb : c.blender <;> rw [hb] at hp <;> simp [V3.zero] at hp
    have hl := V3.len_pos n
    have e2 : c.project (V3.normalize p) = c.project p := by
      show c.project ((1 / V3.len p) * p) = _
      exact project_smul c (1 / V3.len p) (by positivity) p
    have e3 : c.project ((1 : ℝ) * c.castRay (X + u) (Y + v)) = c.project (c.castRay (X + u) (Y + v)) :=
      project_smul c 1 one_ne_zero _
    rw [e3, h, e2] at e
    rw [e.1]
    simp only
    constructor
    · symm; rw [Int.floor_eq_iff]; constructor <;> linarith
    · symm; rw [Int.floor_eq_iff]; constructor <;> linarith
  · rintro ⟨rfl, rfl⟩
    refine ⟨(c.project p).1 - ⌊(c.project p).1⌋, (c.project p).2 - ⌊(c.project p).2⌋, ?_, ?_, ?_, ?_, ?_⟩
    · linarith [Int.floor_le (c.project p).1]
    · linarith [Int.lt_floor_add_one (c.project p).1]
    · linarith [Int.floor_le (c.project p).2]
    · linarith [Int.lt_floor_add_one (c.project p).2]
    · rw [add_sub_cancel, add_sub_cancel]
      exact C37_ray_of_project c hd hx hy p hp

/-- Non-vacuity: a camera of 8 × 8 pixels and a point a little right of and below its axis. -/
example : Sees ⟨10, 10, 4, 4, 8, 8, false, none⟩ 4 4 ⟨0.05, 0.05, 1⟩ := by
  rw [C140_surface _ rfl (by norm_num) (by norm_num) _ (by simp [Lens.depth])]
  simp only [Lens.project, Lens.depth]
  constructor <;> (symm; rw [Int.floor_eq_iff]; constructor <;> norm_num)

/-! ### Without a PSF -/

theorem round_eq_floor (x : ℝ) : roundPos x = ⌊x⌋ ↔ x - ⌊x⌋ < 1 / 2 := by
  unfold roundPos
  rw [Int.floor_eq_iff]
  constructor
  · rintro ⟨_, h⟩; linarith
  · intro h
    exact ⟨by linarith [Int.floor_le x], by linarith⟩

/-- **C140 (partial).** Without a PSF the light of a source is in the pixel that sees its direction exactly when it lies in
the upper left quarter of the pixel. Missing: the other three quarters, which land in a neighbouring pixel or nowhere. -/
theorem C140_plain_iff_partial (c : Lens) (f : Frame) (i : Item) (p : V3) (X Y : Int) (hd : c.distortion = none)
    (hfx : c.fx ≠ 0) (hfy : c.fy ≠ 0) (ha : At c f i p) (hS : f.S = 0) (hv : i.visible = true) (hp : i.power ≠ 0)
    (hX : 0 ≤ X ∧ X < f.W) (hY : 0 ≤ Y ∧ Y < f.H) (hs : Sees c X Y p) :
    image f [i] X Y = i.power ↔ i.x - X < 1 / 2 ∧ i.y - Y < 1 / 2 := by
  obtain ⟨a1, a2, a3, a4, a5⟩ := ha
  rw [C140_surface c hd hfx hfy p a5, ← a3, ← a4] at hs
  obtain ⟨rfl, rfl⟩ := hs
  have x0 : 0 ≤ i.x := by have := Int.floor_le i.x; have h : (0 : ℝ) ≤ ⌊i.x⌋ := by exact_mod_cast hX.1
                          linarith
  have y0 : 0 ≤ i.y := by have := Int.floor_le i.y; have h : (0 : ℝ) ≤ ⌊i.y⌋ := by exact_mod_cast hY.1
                          linarith
  have x1 : i.x < f.W := Int.floor_lt.1 hX.2
  have y1 : i.y < f.H := Int.floor_lt.1 hY.2
  have hW : 0 < f.W := by omega
  have hH : 0 < f.H := by omega
  have hon : onImage f i := by unfold onImage; push Not; exact ⟨x0, x1.le, y0, y1.le⟩
  rw [single_noPsf f i hW hH hS hv hon _ _ hX hY, ← round_eq_floor, ← round_eq_floor]
  constructor
  · intro h
    by_contra hn
    rw [if_neg (fun q => hn ⟨q.2.1.symm, q.2.2.symm⟩)] at h
    exact hp h.symm
  · rintro ⟨h1, h2⟩
    obtain ⟨q1, q2, q3, q4⟩ := tileAlong_spec i.x f.W x0 x1.le hW
    obtain ⟨s1, s2, s3, s4⟩ := tileAlong_spec i.y f.H y0 y1.le hH
    rw [if_pos]
    refine ⟨⟨by rw [h1]; exact hX.2, by rw [h2]; exact hY.2, ?_, ?_⟩, h1.symm, h2.symm⟩
    · rw [h1]
      change ⌊i.x⌋ < tileAlong i.x (tilesX f) * T + T ∨ (⌊i.x⌋ = f.W ∧ f.W = tileAlong i.x (tilesX f) * T + T) at q4
      omega
    · rw [h2]
      change ⌊i.y⌋ < tileAlong i.y (tilesY f) * T + T ∨ (⌊i.y⌋ = f.H ∧ f.H = tileAlong i.y (tilesY f) * T + T) at s4
      omega

/-- The camera, picture, source and point of the counterexample: the centre of pixel (4, 4). -/
def exLens : Lens := ⟨10, 10, 4, 4, 8, 8, false, none⟩
def exFrame : Frame := ⟨8, 8, 0, fun _ _ _ _ => 0⟩
def exItem : Item := ⟨4.5, 4.5, 1, 0, true⟩
def exPoint : V3 := ⟨0.05, 0.05, 1⟩

theorem ex_at : At exLens exFrame exItem exPoint := by
  refine ⟨rfl, rfl, ?_, ?_, ?_⟩ <;> simp [exLens, exItem, exPoint, Lens.project, Lens.depth] <;> norm_num

theorem ex_sees : Sees exLens 4 4 exPoint := by
  rw [C140_surface _ rfl (by norm_num [exLens]) (by norm_num [exLens]) _ ex_at.2.2.2.2, ← ex_at.2.2.1, ← ex_at.2.2.2.1]
  constructor <;> (symm; rw [Int.floor_eq_iff]; constructor <;> norm_num [exItem])

/-- **C140 (violated).** A star at the centre of pixel (4, 4) is drawn in pixel (5, 5). -/
theorem C140_violated : ¬ C140_full ∧ image exFrame [exItem] 4 4 = 0 ∧ image exFrame [exItem] 5 5 = exItem.power := by
  have hon : onImage exFrame exItem := by unfold onImage; norm_num [exFrame, exItem]
  have rx : roundPos exItem.x = 5 := by
    unfold roundPos; rw [Int.floor_eq_iff]; constructor <;> norm_num [exItem]
  have ry : roundPos exItem.y = 5 := by
    unfold roundPos; rw [Int.floor_eq_iff]; constructor <;> norm_num [exItem]
  have fl : ⌊(4.5 : ℝ)⌋ = 4 := by norm_num
  have st : SameTile exFrame exItem := by
    unfold SameTile
    rw [rx, ry]
    simp only [tileAlong, tilesX, tilesY, exFrame, exItem, T, fl]
    norm_num
  have z : image exFrame [exItem] 4 4 = 0 := by
    rw [single_noPsf _ _ (by norm_num [exFrame]) (by norm_num [exFrame]) rfl rfl hon _ _ (by norm_num [exFrame]) (by norm_num [exFrame]),
      if_neg (by rw [rx]; omega)]
  refine ⟨fun h => ?_, z, ?_⟩
  · have := h exLens exFrame exItem exPoint 4 4 rfl (by norm_num [exLens]) (by norm_num [exLens]) ex_at rfl rfl (by norm_num)
      (by norm_num [exFrame]) (by norm_num) (by norm_num [exFrame]) ex_sees
    rw [z] at this
    norm_num [exItem] at this
  · rw [single_noPsf _ _ (by norm_num [exFrame]) (by norm_num [exFrame]) rfl rfl hon _ _ (by norm_num [exFrame]) (by norm_num [exFrame]),
      if_pos ⟨st, rx.symm, ry.symm⟩]

/-! ### With a PSF, or out of focus -/

/-- The point around which the picture of a source at `x` is drawn, along one axis, with `banks` sub-pixel positions: pixel
`X` covers `X` to `X + 1`. -/
def drawnAt (banks : Nat) (x : ℝ) : ℝ := ⌊x⌋ + 1 / 2 + ⌊(x - ⌊x⌋) * banks⌋ / banks

/-- **C140.** The point around which a source is drawn lies half a pixel beyond its projection, less at most one sub-pixel
position. -/
theorem C140_shift (banks : Nat) (hb : 0 < banks) (x : ℝ) :
    x + 1 / 2 - 1 / banks < drawnAt banks x ∧ drawnAt banks x ≤ x + 1 / 2 := by
  have hb' : (0 : ℝ) < banks := by exact_mod_cast hb
  unfold drawnAt
  have h1 := Int.floor_le ((x - ⌊x⌋) * banks)
  have h2 := Int.lt_floor_add_one ((x - ⌊x⌋) * banks)
  generalize ((⌊(x - ⌊x⌋) * banks⌋ : Int) : ℝ) = k at *
  constructor
  · have : x - ⌊x⌋ < k / banks + 1 / banks := by
      rw [← add_div, lt_div_iff₀ hb']; exact h2
    linarith
  · have : k / banks ≤ x - ⌊x⌋ := by rw [div_le_iff₀ hb']; exact h1
    linarith

/-- Non-vacuity: with 16 positions a star at 100.3 is drawn around 100.75. -/
example : drawnAt 16 100.3 = 100.75 := by
  have : ⌊(100.3 : ℝ)⌋ = 100 := by norm_num
  have h : ⌊((100.3 : ℝ) - (100 : Int)) * (16 : Nat)⌋ = 4 := by rw [Int.floor_eq_iff]; constructor <;> norm_num
  unfold drawnAt
  rw [this, h]; norm_num

theorem pickBank_eq (banks : Nat) (hb : 0 < banks) (x : ℝ) : ((pickBank banks (x - ⌊x⌋) : Nat) : ℝ) = ⌊(x - ⌊x⌋) * banks⌋ := by
  have hb' : (0 : ℝ) < banks := by exact_mod_cast hb
  have h0 : 0 ≤ x - ⌊x⌋ := by linarith [Int.floor_le x]
  have h1 : x - ⌊x⌋ < 1 := by linarith [Int.lt_floor_add_one x]
  have l0 : 0 ≤ ⌊(x - ⌊x⌋) * banks⌋ := Int.floor_nonneg.2 (by positivity)
  have l1 : ⌊(x - ⌊x⌋) * banks⌋ < banks := Int.floor_lt.2 (by push_cast; nlinarith)
  unfold pickBank
  rw [min_eq_left (by omega), max_eq_right l0]
  have : (((⌊(x - ⌊x⌋) * banks⌋).toNat : Int) : ℝ) = ⌊(x - ⌊x⌋) * banks⌋ := by rw [Int.toNat_of_nonneg l0]
  exact_mod_cast this

/-- One source of full radius, on the picture. -/
theorem image_one (f : Frame) (i : Item) (hW : 0 < f.W) (hH : 0 < f.H) (hS : 0 < f.S) (hv : i.visible = true) (hr : i.r = f.S)
    (hon : onImage f i) (X Y : Int) (hX : 0 ≤ X ∧ X < f.W) (hY : 0 ≤ Y ∧ Y < f.H) :
    image f [i] X Y = if |X - ⌊i.x⌋| ≤ f.S ∧ |Y - ⌊i.y⌋| ≤ f.S then
      i.power * f.kern (i.x - ⌊i.x⌋) (i.y - ⌊i.y⌋) (X - ⌊i.x⌋ + f.S) (Y - ⌊i.y⌋ + f.S) else 0 := by
  rw [C50_stamp_partial f [i] hW hH hS (by simp [hr]) X Y hX hY]
  simp only [List.filter_cons, hon, decide_true, if_true, List.filter_nil, List.map_cons, List.map_nil, List.sum_cons,
    List.sum_nil, add_zero, stamp, hv, true_and, hr]
  refine if_congr ?_ rfl rfl
  rw [abs_le, abs_le]
  tauto

/-- **C140 (partial).** With a PSF table the picture of a source is, up to one factor for the whole picture, the mean over each
pixel of the PSF around the point `drawnAt`, which is half a pixel off (`C140_shift`). Missing: the source's own position as
centre. -/
theorem C140_psf_partial (W H : Int) (radius banks res : Nat) (lut : Nat → Nat → ℝ) (i : Item) (hW : 0 < W) (hH : 0 < H)
    (hr : 0 < radius) (hb : 0 < banks) (hv : i.visible = true) (hi : i.r = radius)
    (hon : onImage (psfFrame W H radius banks res lut) i) :
    ∃ k : ℝ, ∀ X Y : Int, (0 ≤ X ∧ X < W) → (0 ≤ Y ∧ Y < H) →
      image (psfFrame W H radius banks res lut) [i] X Y =
        if |X - ⌊i.x⌋| ≤ radius ∧ |Y - ⌊i.y⌋| ≤ radius then
          k * ((∑ sy ∈ range 16, ∑ sx ∈ range 16, sampleLut res (radius + 1) lut
            (X + (sx + 1 / 2) / 16 - drawnAt banks i.x) (Y + (sy + 1 / 2) / 16 - drawnAt banks i.y)) / 256) else 0 := by
  refine ⟨i.power * (let e := Camera.total (2 * radius + 1) (psfPixel radius (sampleLut res ((radius : ℝ) + 1) lut)
      ((pickBank banks (i.x - ⌊i.x⌋) : ℝ) / banks) ((pickBank banks (i.y - ⌊i.y⌋) : ℝ) / banks));
      if e > 1e-9 then 1 / e else 0), fun X Y hX hY => ?_⟩
  rw [image_one (psfFrame W H radius banks res lut) i hW hH (by simpa [psfFrame] using hr) hv hi hon X Y hX hY]
  show (if |X - ⌊i.x⌋| ≤ (radius : Int) ∧ |Y - ⌊i.y⌋| ≤ (radius : Int) then _ else _) = _
  by_cases hc : |X - ⌊i.x⌋| ≤ (radius : Int) ∧ |Y - ⌊i.y⌋| ≤ (radius : Int)
  · rw [if_pos hc, if_pos hc]
    simp only [psfFrame, psfKernel, normalizeKernel]
    rw [abs_le, abs_le] at hc
    have cX : (((X - ⌊i.x⌋ + radius).toNat : Nat) : ℝ) = X - ⌊i.x⌋ + radius := by
      have : (((X - ⌊i.x⌋ + radius).toNat : Int) : ℝ) = ((X - ⌊i.x⌋ + radius : Int) : ℝ) := by rw [Int.toNat_of_nonneg (by omega)]
      push_cast at this; exact_mod_cast this
    have cY : (((Y - ⌊i.y⌋ + radius).toNat : Nat) : ℝ) = Y - ⌊i.y⌋ + radius := by
      have : (((Y - ⌊i.y⌋ + radius).toNat : Int) : ℝ) = ((Y - ⌊i.y⌋ + radius : Int) : ℝ) := by rw [Int.toNat_of_nonneg (by omega)]
      push_cast at this; exact_mod_cast this
    have key : psfPixel radius (sampleLut res ((radius : ℝ) + 1) lut) ((pickBank banks (i.x - ⌊i.x⌋) : ℝ) / banks)
        ((pickBank banks (i.y - ⌊i.y⌋) : ℝ) / banks) (X - ⌊i.x⌋ + radius).toNat (Y - ⌊i.y⌋ + radius).toNat =
        (∑ sy ∈ range 16, ∑ sx ∈ range 16, sampleLut res (radius + 1) lut
            (X + (sx + 1 / 2) / 16 - drawnAt banks i.x) (Y + (sy + 1 / 2) / 16 - drawnAt banks i.y)) / 256 := by
      unfold psfPixel
      rw [cX, cY, pickBank_eq banks hb, pickBank_eq banks hb, mul_one_div]
      congr 1
      refine sum_congr rfl fun sy _ => sum_congr rfl fun sx _ => ?_
      unfold drawnAt
      congr 1 <;> ring
    rw [key]
    ring
  · rw [if_neg hc, if_neg hc]

/-- **C140 (partial).** Out of focus the picture of a source is, up to one factor for the whole picture, the disc of the blur
around the point `drawnAt`, which is half a pixel off (`C140_shift`): full brightness in pixels whose centre is at least half
a pixel inside, none where it is half a pixel outside. Missing: the source's own position as centre. -/
theorem C140_defocus_partial (W H : Int) (r : ℝ) (banks : Nat) (i : Item) (hW : 0 < W) (hH : 0 < H)
    (hb : 0 < banks) (hv : i.visible = true) (hi : i.r = halfExtent r)
    (hon : onImage (defocusFrame W H r banks) i) :
    ∃ k : ℝ, ∀ X Y : Int, (0 ≤ X ∧ X < W) → (0 ≤ Y ∧ Y < H) →
      image (defocusFrame W H r banks) [i] X Y =
        if |X - ⌊i.x⌋| ≤ halfExtent r ∧ |Y - ⌊i.y⌋| ≤ halfExtent r then
          k * max 0 (min 1 (r + 1 / 2 -
            Real.sqrt ((X + 1 / 2 - drawnAt banks i.x) ^ 2 + (Y + 1 / 2 - drawnAt banks i.y) ^ 2))) else 0 := by
  refine ⟨i.power * (1 / Camera.total (2 * halfExtent r + 1) (coverage (halfExtent r) r
      ((pickBank banks (i.x - ⌊i.x⌋) : ℝ) / banks) ((pickBank banks (i.y - ⌊i.y⌋) : ℝ) / banks))), fun X Y hX hY => ?_⟩
  have hpos : 0 < halfExtent r := by unfold halfExtent; omega
  rw [image_one (defocusFrame W H r banks) i hW hH (by simpa [defocusFrame] using hpos) hv hi hon X Y hX hY]
  show (if |X - ⌊i.x⌋| ≤ (halfExtent r : Int) ∧ |Y - ⌊i.y⌋| ≤ (halfExtent r : Int) then _ else _) = _
  by_cases hc : |X - ⌊i.x⌋| ≤ (halfExtent r : Int) ∧ |Y - ⌊i.y⌋| ≤ (halfExtent r : Int)
  · rw [if_pos hc, if_pos hc]
    simp only [defocusFrame, defocusKernel]
    rw [abs_le, abs_le] at hc
    have cX : (((X - ⌊i.x⌋ + halfExtent r).toNat : Nat) : ℝ) = X - ⌊i.x⌋ + halfExtent r := by
      have : (((X - ⌊i.x⌋ + halfExtent r).toNat : Int) : ℝ) = ((X - ⌊i.x⌋ + halfExtent r : Int) : ℝ) := by rw [Int.toNat_of_nonneg (by omega)]
      push_cast at this; exact_mod_cast this
    have cY : (((Y - ⌊i.y⌋ + halfExtent r).toNat : Nat) : ℝ) = Y - ⌊i.y⌋ + halfExtent r := by
      have : (((Y - ⌊i.y⌋ + halfExtent r).toNat : Int) : ℝ) = ((Y - ⌊i.y⌋ + halfExtent r : Int) : ℝ) := by rw [Int.toNat_of_nonneg (by omega)]
      push_cast at this; exact_mod_cast this
    have key : coverage (halfExtent r) r ((pickBank banks (i.x - ⌊i.x⌋) : ℝ) / banks)
        ((pickBank banks (i.y - ⌊i.y⌋) : ℝ) / banks) (X - ⌊i.x⌋ + halfExtent r).toNat (Y - ⌊i.y⌋ + halfExtent r).toNat =
        max 0 (min 1 (r + 1 / 2 -
            Real.sqrt ((X + 1 / 2 - drawnAt banks i.x) ^ 2 + (Y + 1 / 2 - drawnAt banks i.y) ^ 2))) := by
      unfold coverage
      simp only
      rw [cX, cY, pickBank_eq banks hb, pickBank_eq banks hb]
      unfold drawnAt
      rw [show ∀ q : ℝ, r - q + 0.5 = r + 1 / 2 - q by intro q; norm_num; ring]
      congr 4
      ring
    rw [key]
    ring
  · rw [if_neg hc, if_neg hc]

/-- Non-vacuity of the last two: the frames' sources. -/
example : onImage (psfFrame 64 64 4 16 2048 fun _ _ => 1) ⟨10.3, 20.7, 1, 4, true⟩ ∧
    onImage (defocusFrame 64 64 3 16) ⟨10.3, 20.7, 1, 3, true⟩ := by
  unfold onImage psfFrame defocusFrame; norm_num

/-- **C140.** Two sources a whole number of pixels apart have pictures that many pixels apart, and two sources in the same
sub-pixel position have the same picture: the error depends on the sub-pixel position alone. -/
theorem C140_steps (banks : Nat) (x : ℝ) (m : Int) : drawnAt banks (x + m) = drawnAt banks x + m := by
  unfold drawnAt
  rw [Int.floor_add_intCast, show x + (m : ℝ) - ((⌊x⌋ + m : Int) : ℝ) = x - ⌊x⌋ by push_cast; ring]
  push_cast; ring

end
end Huira.Place
