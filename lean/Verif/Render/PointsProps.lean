import Mathlib.Tactic.FieldSimp
import Mathlib.Tactic.Linarith
import Mathlib.Tactic.Ring
import Mathlib.Tactic.Positivity
import Mathlib.Algebra.BigOperators.Ring.List
import Verif.Render.PointsModel
set_option linter.unusedSimpArgs false
/-!
# C50: point sources and tile borders; C51: weights of time samples
-/
namespace Huira.Points
noncomputable section
open Classical

/-! ### Sums over lists -/

theorem foldl_addAt {α : Type} (l : List α) (p q : α → Int) (v : α → ℝ) (b : Int → Int → ℝ) (x y : Int) :
    (l.foldl (fun b k => addAt b (p k) (q k) (v k)) b) x y =
      b x y + (l.map fun k => if p k = x ∧ q k = y then v k else 0).sum := by
  induction l generalizing b with
  | nil => simp
  | cons a t ih =>
    simp only [List.foldl_cons, ih, List.map_cons, List.sum_cons, addAt]
    by_cases h : p a = x ∧ q a = y
    · rw [if_pos h, if_pos h]; ring
    · rw [if_neg h, if_neg h]; ring

theorem sum_map_zero {α : Type} (l : List α) (g : α → ℝ) (h : ∀ k ∈ l, g k = 0) : (l.map g).sum = 0 := by
  induction l with
  | nil => rfl
  | cons a t ih =>
    simp only [List.map_cons, List.sum_cons]
    rw [h a (List.mem_cons_self ..), ih fun k hk => h k (List.mem_cons_of_mem _ hk)]
    simp

theorem sum_map_single {α : Type} (l : List α) (hn : l.Nodup) (g : α → ℝ) (k0 : α) (hk : k0 ∈ l)
    (h : ∀ k ∈ l, k ≠ k0 → g k = 0) : (l.map g).sum = g k0 := by
  induction l with
  | nil => simp at hk
  | cons a t ih =>
    simp only [List.map_cons, List.sum_cons]
    rw [List.nodup_cons] at hn
    rcases List.mem_cons.1 hk with rfl | hk
    · rw [sum_map_zero t g]
      · simp
      · intro k hkt
        apply h k (List.mem_cons_of_mem _ hkt)
        rintro rfl
        exact hn.1 hkt
    · have hne : a ≠ k0 := by rintro rfl; exact hn.1 hk
      rw [h a (List.mem_cons_self ..) hne, ih hn.2 hk fun k hkt => h k (List.mem_cons_of_mem _ hkt)]
      simp

theorem mem_intRange (a b x : Int) : x ∈ intRange a b ↔ a ≤ x ∧ x < b := by
  simp only [intRange, List.mem_map, List.mem_range]
  constructor
  · rintro ⟨k, hk, rfl⟩; omega
  · rintro ⟨h1, h2⟩
    exact ⟨(x - a).toNat, by omega, by omega⟩

theorem nodup_intRange (a b : Int) : (intRange a b).Nodup := by
  unfold intRange
  apply List.Nodup.map _ List.nodup_range
  intro x y h
  simp only at h
  omega

theorem mem_stampIdx (f : Frame) (t : Nat) (i : Item) (k : Int × Int) :
    k ∈ stampIdx f t i ↔
      max 0 (lx0 f t - (⌊i.x⌋ - i.r)) ≤ k.1 ∧ k.1 < min (2 * i.r + 1) (lx1 f t - (⌊i.x⌋ - i.r)) ∧
      max 0 (ly0 f t - (⌊i.y⌋ - i.r)) ≤ k.2 ∧ k.2 < min (2 * i.r + 1) (ly1 f t - (⌊i.y⌋ - i.r)) := by
  unfold stampIdx
  simp only [List.mem_flatMap, List.mem_map, mem_intRange]
  constructor
  · rintro ⟨ky, hy, kx, hx, rfl⟩
    exact ⟨hx.1, hx.2, hy.1, hy.2⟩
  · rintro ⟨h1, h2, h3, h4⟩
    exact ⟨k.2, ⟨h3, h4⟩, k.1, ⟨h1, h2⟩, rfl⟩

theorem nodup_stampIdx (f : Frame) (t : Nat) (i : Item) : (stampIdx f t i).Nodup := by
  unfold stampIdx
  simp only []
  rw [List.nodup_flatMap]
  refine ⟨?_, ?_⟩
  · intro ky _
    apply List.Nodup.map _ (nodup_intRange _ _)
    intro a b h
    simpa using h
  · apply List.Pairwise.imp _ (nodup_intRange _ _)
    intro a b hab
    simp only [Function.onFun, List.disjoint_left, List.mem_map]
    rintro p ⟨x, _, rfl⟩ ⟨x', _, h⟩
    simp only [Prod.mk.injEq] at h
    exact hab h.2.symm

/-! ### Specification -/

/-- Specification: what one source adds to image pixel (X, Y) with a kernel: power times the kernel value at the offset
from the source's pixel, within the effective radius. `S` is the index of the kernel's centre. -/
def stamp (f : Frame) (i : Item) (X Y : Int) : ℝ :=
  if i.visible ∧ -i.r ≤ X - ⌊i.x⌋ ∧ X - ⌊i.x⌋ ≤ i.r ∧ -i.r ≤ Y - ⌊i.y⌋ ∧ Y - ⌊i.y⌋ ≤ i.r then
    i.power * f.kern (i.x - ⌊i.x⌋) (i.y - ⌊i.y⌋) (X - ⌊i.x⌋ + f.S) (Y - ⌊i.y⌋ + f.S)
  else 0

/-- What one source adds at a position of the tile's buffer. -/
theorem drawItem_eq (f : Frame) (t : Nat) (b : Int → Int → ℝ) (i : Item) (hS : f.S > 0) (X Y : Int)
    (hX : lx0 f t ≤ X ∧ X < lx1 f t) (hY : ly0 f t ≤ Y ∧ Y < ly1 f t) :
    drawItem f t b i (X - lx0 f t) (Y - ly0 f t) = b (X - lx0 f t) (Y - ly0 f t) + stamp f i X Y := by
  unfold drawItem
  by_cases hv : i.visible = false
  · rw [if_pos hv]
    have : stamp f i X Y = 0 := by
      unfold stamp; rw [if_neg]; rintro ⟨h, _⟩; rw [hv] at h; exact absurd h (by decide)
    rw [this, add_zero]
  · rw [if_neg hv, if_pos hS, foldl_addAt]
    congr 1
    have hvt : i.visible = true := by simpa using hv
    set g : Int × Int → ℝ := fun k =>
      if ⌊i.x⌋ - i.r + k.1 - lx0 f t = X - lx0 f t ∧ ⌊i.y⌋ - i.r + k.2 - ly0 f t = Y - ly0 f t then
        i.power * f.kern (i.x - ⌊i.x⌋) (i.y - ⌊i.y⌋) (k.1 + (f.S - i.r)) (k.2 + (f.S - i.r)) else 0 with hg
    let k0 : Int × Int := (X - (⌊i.x⌋ - i.r), Y - (⌊i.y⌋ - i.r))
    by_cases hin : -i.r ≤ X - ⌊i.x⌋ ∧ X - ⌊i.x⌋ ≤ i.r ∧ -i.r ≤ Y - ⌊i.y⌋ ∧ Y - ⌊i.y⌋ ≤ i.r
    · have hk0 : k0 ∈ stampIdx f t i := by
        rw [mem_stampIdx]
        simp only [k0]
        omega
      rw [sum_map_single _ (nodup_stampIdx f t i) g k0 hk0]
      · have e1 : ⌊i.x⌋ - i.r + k0.1 - lx0 f t = X - lx0 f t ∧ ⌊i.y⌋ - i.r + k0.2 - ly0 f t = Y - ly0 f t := by
          simp only [k0]; omega
        rw [hg]
        simp only []
        rw [if_pos e1]
        unfold stamp
        rw [if_pos ⟨hvt, hin⟩]
        have a1 : k0.1 + (f.S - i.r) = X - ⌊i.x⌋ + f.S := by simp only [k0]; ring
        have a2 : k0.2 + (f.S - i.r) = Y - ⌊i.y⌋ + f.S := by simp only [k0]; ring
        rw [a1, a2]
      · intro k _ hne
        rw [hg]
        simp only []
        rw [if_neg]
        rintro ⟨h1, h2⟩
        apply hne
        apply Prod.ext
        · simp only [k0]; omega
        · simp only [k0]; omega
    · have : stamp f i X Y = 0 := by
        unfold stamp; rw [if_neg]; exact fun h => hin h.2
      rw [this]
      apply sum_map_zero
      intro k hk
      rw [mem_stampIdx] at hk
      rw [hg]
      simp only []
      rw [if_neg]
      rintro ⟨h1, h2⟩
      apply hin
      omega

theorem foldl_draw (f : Frame) (t : Nat) (l : List Item) (b : Int → Int → ℝ) (hS : f.S > 0) (X Y : Int)
    (hX : lx0 f t ≤ X ∧ X < lx1 f t) (hY : ly0 f t ≤ Y ∧ Y < ly1 f t) :
    l.foldl (drawItem f t) b (X - lx0 f t) (Y - ly0 f t) =
      b (X - lx0 f t) (Y - ly0 f t) + (l.map fun i => stamp f i X Y).sum := by
  induction l generalizing b with
  | nil => simp
  | cons a s ih =>
    simp only [List.foldl_cons, ih, List.map_cons, List.sum_cons, drawItem_eq f t b a hS X Y hX hY]
    ring

/-! ### Where a source is binned -/

theorem tiles_pos {n : Int} (h : 0 < n) : 0 < (n + T - 1) / T := by
  unfold T; omega

theorem tileAlong_spec (p : ℝ) (n : Int) (hp : 0 ≤ p) (hpn : p ≤ n) (hn : 0 < n) :
    let k := tileAlong p ((n + T - 1) / T)
    0 ≤ k ∧ k < (n + T - 1) / T ∧ k * T ≤ ⌊p⌋ ∧ (⌊p⌋ < k * T + T ∨ (⌊p⌋ = n ∧ n = k * T + T)) := by
  have h0 : 0 ≤ ⌊p⌋ := Int.floor_nonneg.2 hp
  have h1 : ⌊p⌋ ≤ n := by
    have : (⌊p⌋ : ℝ) ≤ n := le_trans (Int.floor_le p) hpn
    exact_mod_cast this
  simp only [tileAlong, T]
  omega

theorem tileOf_spec (f : Frame) (i : Item) (hW : 0 < f.W) (hH : 0 < f.H) (h : onImage f i) :
    tileOf f i < numTiles f ∧ ((tileOf f i : Nat) : Int) % tilesX f = tileAlong i.x (tilesX f) ∧
      ((tileOf f i : Nat) : Int) / tilesX f = tileAlong i.y (tilesY f) := by
  unfold onImage at h
  push Not at h
  obtain ⟨a1, a2, a3, a4⟩ := h
  obtain ⟨x1, x2, x3, x4⟩ := tileAlong_spec i.x f.W a1 a2 hW
  obtain ⟨y1, y2, y3, y4⟩ := tileAlong_spec i.y f.H a3 a4 hH
  have hx : 0 < tilesX f := tiles_pos hW
  have hy : 0 < tilesY f := tiles_pos hH
  change 0 ≤ tileAlong i.x (tilesX f) at x1
  change tileAlong i.x (tilesX f) < tilesX f at x2
  change 0 ≤ tileAlong i.y (tilesY f) at y1
  change tileAlong i.y (tilesY f) < tilesY f at y2
  have hnn : 0 ≤ tileAlong i.y (tilesY f) * tilesX f + tileAlong i.x (tilesX f) := by positivity
  have hcast : ((tileOf f i : Nat) : Int) = tileAlong i.y (tilesY f) * tilesX f + tileAlong i.x (tilesX f) := by
    unfold tileOf; omega
  refine ⟨?_, ?_, ?_⟩
  · have : tileAlong i.y (tilesY f) * tilesX f + tileAlong i.x (tilesX f) < tilesX f * tilesY f := by
      have h1 : tileAlong i.y (tilesY f) + 1 ≤ tilesY f := y2
      have h2 : (tileAlong i.y (tilesY f) + 1) * tilesX f ≤ tilesY f * tilesX f :=
        mul_le_mul_of_nonneg_right h1 hx.le
      nlinarith
    unfold tileOf numTiles
    omega
  · rw [hcast, Int.add_comm, Int.add_mul_emod_self_right]
    exact Int.emod_eq_of_lt x1 x2
  · rw [hcast, Int.add_comm, Int.add_mul_ediv_right _ _ hx.ne', Int.ediv_eq_zero_of_lt x1 x2]
    simp

/-- The stamp of a source never leaves the local buffer of its tile, except where it leaves the image. -/
theorem stamp_in_buffer (f : Frame) (i : Item) (hW : 0 < f.W) (hH : 0 < f.H) (h : onImage f i) (hr : i.r ≤ f.S)
    (X Y : Int) (hX : 0 ≤ X ∧ X < f.W) (hY : 0 ≤ Y ∧ Y < f.H)
    (h1 : -i.r ≤ X - ⌊i.x⌋ ∧ X - ⌊i.x⌋ ≤ i.r) (h2 : -i.r ≤ Y - ⌊i.y⌋ ∧ Y - ⌊i.y⌋ ≤ i.r) :
    (lx0 f (tileOf f i) ≤ X ∧ X < lx1 f (tileOf f i)) ∧ (ly0 f (tileOf f i) ≤ Y ∧ Y < ly1 f (tileOf f i)) := by
  obtain ⟨_, e1, e2⟩ := tileOf_spec f i hW hH h
  unfold onImage at h
  push Not at h
  obtain ⟨a1, a2, a3, a4⟩ := h
  obtain ⟨x1, x2, x3, x4⟩ := tileAlong_spec i.x f.W a1 a2 hW
  obtain ⟨y1, y2, y3, y4⟩ := tileAlong_spec i.y f.H a3 a4 hH
  change tileAlong i.x (tilesX f) * T ≤ ⌊i.x⌋ at x3
  change ⌊i.x⌋ < tileAlong i.x (tilesX f) * T + T ∨ (⌊i.x⌋ = f.W ∧ f.W = tileAlong i.x (tilesX f) * T + T) at x4
  change tileAlong i.y (tilesY f) * T ≤ ⌊i.y⌋ at y3
  change ⌊i.y⌋ < tileAlong i.y (tilesY f) * T + T ∨ (⌊i.y⌋ = f.H ∧ f.H = tileAlong i.y (tilesY f) * T + T) at y4
  simp only [lx0, lx1, ly0, ly1, e1, e2]
  omega

/-- Sum over tiles of a sum over the tile's bin is the sum over the sources. -/
theorem sum_bins (items : List Item) (p : Item → Bool) (tile : Item → Nat) (n : Nat)
    (h : ∀ i ∈ items, p i → tile i < n) (g : Item → ℝ) :
    ((List.range n).map fun t => ((items.filter fun i => p i && decide (tile i = t)).map g).sum).sum =
      ((items.filter p).map g).sum := by
  induction items with
  | nil => simp
  | cons a s ih =>
    have ih := ih fun i hi => h i (List.mem_cons_of_mem _ hi)
    by_cases ha : p a = true
    · have : ∀ t, (((a :: s).filter fun i => p i && decide (tile i = t)).map g).sum =
          (if tile a = t then g a else 0) + ((s.filter fun i => p i && decide (tile i = t)).map g).sum := by
        intro t
        by_cases ht : tile a = t
        · simp [List.filter_cons, ha, ht]
        · simp [List.filter_cons, ha, ht]
      simp only [this]
      rw [List.sum_map_add, ih]
      have hs := sum_map_single (List.range n) List.nodup_range (fun t => if tile a = t then g a else 0) (tile a)
        (List.mem_range.2 (h a (List.mem_cons_self ..) ha)) (by
          intro k _ hne; rw [if_neg (fun e => hne e.symm)])
      rw [hs]
      simp [List.filter_cons, ha]
    · have : ∀ t, (((a :: s).filter fun i => p i && decide (tile i = t)).map g).sum =
          ((s.filter fun i => p i && decide (tile i = t)).map g).sum := by
        intro t; simp [List.filter_cons, ha]
      simp only [this, ih]
      simp [List.filter_cons, ha]

theorem foldl_if_add (l : List Nat) (P : Nat → Prop) (v : Nat → ℝ) (a : ℝ) :
    l.foldl (fun acc t => if P t then acc + v t else acc) a = a + (l.map fun t => if P t then v t else 0).sum := by
  induction l generalizing a with
  | nil => simp
  | cons b t ih =>
    simp only [List.foldl_cons, ih, List.map_cons, List.sum_cons]
    by_cases h : P b
    · rw [if_pos h, if_pos h]; ring
    · rw [if_neg h, if_neg h]; ring

/-- **C50, with a point-spread function or defocus.** For every image size, list of sources, kernel and stamp radius: the
value of every image pixel is exactly the sum, over all sources projected onto the image, of power times kernel value at
the pixel's offset from the source. So nothing is lost, cut or counted twice at tile borders, wherever the source lies. -/
theorem C50_stamp_partial (f : Frame) (items : List Item) (hW : 0 < f.W) (hH : 0 < f.H) (hS : 0 < f.S)
    (hr : ∀ i ∈ items, i.r ≤ f.S) (X Y : Int) (hX : 0 ≤ X ∧ X < f.W) (hY : 0 ≤ Y ∧ Y < f.H) :
    image f items X Y = ((items.filter fun i => decide (onImage f i)).map fun i => stamp f i X Y).sum := by
  unfold image
  rw [foldl_if_add, zero_add]
  rw [← sum_bins items (fun i => decide (onImage f i)) (tileOf f) (numTiles f)
    (fun i _ h => (tileOf_spec f i hW hH (by simpa using h)).1)]
  congr 1
  apply List.map_congr_left
  intro t _
  have hbin : bin f items t = items.filter fun i => decide (onImage f i) && decide (tileOf f i = t) := by
    unfold bin
    apply List.filter_congr
    intro i _
    simp
  by_cases hin : (lx0 f t ≤ X ∧ X < lx1 f t) ∧ (ly0 f t ≤ Y ∧ Y < ly1 f t)
  · by_cases hb : bin f items t = []
    · rw [if_neg (fun h => h.1 hb), ← hbin, hb]; rfl
    · rw [if_pos ⟨hb, by omega⟩]
      unfold tileBuf
      rw [foldl_draw f t _ _ hS X Y hin.1 hin.2, hbin, zero_add]
  · rw [if_neg]
    · symm
      apply sum_map_zero
      intro i hi
      simp only [List.mem_filter, Bool.and_eq_true, decide_eq_true_eq] at hi
      obtain ⟨hmem, hon, htile⟩ := hi
      unfold stamp
      rw [if_neg]
      rintro ⟨_, b1, b2, b3, b4⟩
      apply hin
      rw [← htile]
      exact stamp_in_buffer f i hW hH hon (hr i hmem) X Y hX hY ⟨b1, b2⟩ ⟨b3, b4⟩
    · rintro ⟨_, c1, c2, c3, c4⟩
      apply hin
      omega

/-- A concrete frame: 128 x 64 pixels, a 3 x 3 box kernel; a source at (63.6, 10.2) next to the border between two tiles
reaches pixel (64, 10) of the other tile. -/
example : image ⟨128, 64, 1, fun _ _ _ _ => 1 / 9⟩ [⟨63.6, 10.2, 9, 1, true⟩] 64 10 = 1 := by
  have h1 : ⌊(63.6 : ℝ)⌋ = 63 := by norm_num
  have h2 : ⌊(10.2 : ℝ)⌋ = 10 := by norm_num
  rw [C50_stamp_partial _ _ (by norm_num) (by norm_num) (by norm_num) (by simp) _ _ (by norm_num) (by norm_num)]
  have hon : onImage ⟨128, 64, 1, fun _ _ _ _ => 1 / 9⟩ ⟨63.6, 10.2, 9, 1, true⟩ := by
    unfold onImage; norm_num
  simp only [List.filter_cons, decide_eq_true hon, if_true, List.filter_nil, List.map_cons, List.map_nil, List.sum_cons,
    List.sum_nil, stamp]
  rw [h1, h2]
  norm_num

/-! ### Without a point-spread function -/

/-- Specification: without a PSF, the source's whole power goes to one pixel of the image and nothing to the others. -/
def OnePixel (f : Frame) (i : Item) : Prop :=
  ∃ X0 Y0 : Int, (0 ≤ X0 ∧ X0 < f.W) ∧ (0 ≤ Y0 ∧ Y0 < f.H) ∧
    ∀ X Y : Int, (0 ≤ X ∧ X < f.W) → (0 ≤ Y ∧ Y < f.H) →
      image f [i] X Y = if X = X0 ∧ Y = Y0 then i.power else 0

/-- The property at full strength, without a PSF: a visible source that lies on the image gives its power to a pixel. -/
def C50_full : Prop :=
  ∀ (f : Frame) (i : Item), 0 < f.W → 0 < f.H → f.S = 0 → i.visible = true →
    0 ≤ i.x → i.x < f.W → 0 ≤ i.y → i.y < f.H → OnePixel f i

/-- The rounded position lies in the tile the source was binned in and on the image. -/
def SameTile (f : Frame) (i : Item) : Prop :=
  roundPos i.x < f.W ∧ roundPos i.y < f.H ∧ roundPos i.x < tileAlong i.x (tilesX f) * T + T ∧
    roundPos i.y < tileAlong i.y (tilesY f) * T + T

/-- What an image of one source without a PSF looks like: its power at the rounded position if that is in the same tile,
nothing at all otherwise. -/
theorem single_noPsf (f : Frame) (i : Item) (hW : 0 < f.W) (hH : 0 < f.H) (hS : f.S = 0) (hv : i.visible = true)
    (hon : onImage f i) (X Y : Int) (hX : 0 ≤ X ∧ X < f.W) (hY : 0 ≤ Y ∧ Y < f.H) :
    image f [i] X Y = if SameTile f i ∧ X = roundPos i.x ∧ Y = roundPos i.y then i.power else 0 := by
  obtain ⟨tlt, e1, e2⟩ := tileOf_spec f i hW hH hon
  have hon' := hon
  unfold onImage at hon'
  push Not at hon'
  obtain ⟨a1, a2, a3, a4⟩ := hon'
  obtain ⟨x1, x2, x3, x4⟩ := tileAlong_spec i.x f.W a1 a2 hW
  obtain ⟨y1, y2, y3, y4⟩ := tileAlong_spec i.y f.H a3 a4 hH
  change 0 ≤ tileAlong i.x (tilesX f) at x1
  change tileAlong i.x (tilesX f) * T ≤ ⌊i.x⌋ at x3
  change 0 ≤ tileAlong i.y (tilesY f) at y1
  change tileAlong i.y (tilesY f) * T ≤ ⌊i.y⌋ at y3
  have rx : ⌊i.x⌋ ≤ roundPos i.x := by
    unfold roundPos; exact Int.floor_le_floor (by linarith)
  have ry : ⌊i.y⌋ ≤ roundPos i.y := by
    unfold roundPos; exact Int.floor_le_floor (by linarith)
  unfold image
  rw [foldl_if_add, zero_add]
  have hbin : ∀ t, bin f [i] t = if tileOf f i = t then [i] else [] := by
    intro t
    unfold bin
    by_cases h : tileOf f i = t
    · simp [List.filter_cons, hon, h]
    · simp [List.filter_cons, hon, h]
  rw [sum_map_single (List.range (numTiles f)) List.nodup_range _ (tileOf f i) (List.mem_range.2 tlt)]
  · set t := tileOf f i with ht
    have bt : bin f [i] t = [i] := by rw [hbin, if_pos rfl]
    have l0 : lx0 f t = tileAlong i.x (tilesX f) * T := by
      unfold lx0; rw [e1, hS]; unfold T at *; omega
    have m0 : ly0 f t = tileAlong i.y (tilesY f) * T := by
      unfold ly0; rw [e2, hS]; unfold T at *; omega
    have l1 : lx1 f t = min f.W (tileAlong i.x (tilesX f) * T + T) := by
      unfold lx1; rw [e1, hS, add_zero]
    have m1 : ly1 f t = min f.H (tileAlong i.y (tilesY f) * T + T) := by
      unfold ly1; rw [e2, hS, add_zero]
    have hdraw : tileBuf f [i] t = drawItem f t (fun _ _ => 0) i := by
      unfold tileBuf; rw [bt]; rfl
    have hgate : (roundPos i.x ≥ lx0 f t ∧ roundPos i.x < lx1 f t ∧ roundPos i.y ≥ ly0 f t ∧ roundPos i.y < ly1 f t) ↔
        SameTile f i := by
      rw [l0, m0, l1, m1]
      unfold SameTile
      constructor
      · rintro ⟨_, h2, _, h4⟩; omega
      · rintro ⟨h1, h2, h3, h4⟩; omega
    have hd : ∀ x y, drawItem f t (fun _ _ => 0) i x y =
        if SameTile f i ∧ roundPos i.x - lx0 f t = x ∧ roundPos i.y - ly0 f t = y then i.power else 0 := by
      intro x y
      unfold drawItem
      rw [if_neg (by rw [hv]; decide), if_neg (by omega)]
      by_cases hg : SameTile f i
      · rw [if_pos (hgate.2 hg)]
        unfold addAt
        by_cases hxy : roundPos i.x - lx0 f t = x ∧ roundPos i.y - ly0 f t = y
        · rw [if_pos hxy, if_pos ⟨hg, hxy⟩]; ring
        · rw [if_neg hxy, if_neg (fun h => hxy h.2)]
      · rw [if_neg (fun h => hg (hgate.1 h)), if_neg (fun h => hg h.1)]
    rw [hdraw, hd]
    by_cases hh : SameTile f i ∧ X = roundPos i.x ∧ Y = roundPos i.y
    · have hg := hgate.2 hh.1
      rw [if_pos hh, if_pos, if_pos]
      · exact ⟨hh.1, by rw [hh.2.1], by rw [hh.2.2]⟩
      · unfold holds
        rw [bt]
        refine ⟨by simp, ?_⟩
        rw [hh.2.1, hh.2.2]
        omega
    · rw [if_neg hh]
      split
      · rw [if_neg]
        rintro ⟨h1, h2, h3⟩
        exact hh ⟨h1, by omega, by omega⟩
      · rfl
  · intro t _ hne
    rw [if_neg]
    rintro ⟨h, _⟩
    apply h
    rw [hbin, if_neg (fun e => hne e.symm)]

/-- **C50, exact condition without a PSF.** A source is drawn iff rounding does not move it into the next tile or past the
last column or row; otherwise its power is lost. -/
theorem C50_drawn_iff (f : Frame) (i : Item) (hW : 0 < f.W) (hH : 0 < f.H) (hS : f.S = 0) (hv : i.visible = true)
    (hp : i.power ≠ 0) (h1 : 0 ≤ i.x) (h2 : i.x < f.W) (h3 : 0 ≤ i.y) (h4 : i.y < f.H) :
    (OnePixel f i ↔ SameTile f i) ∧
    (¬ SameTile f i → ∀ X Y : Int, (0 ≤ X ∧ X < f.W) → (0 ≤ Y ∧ Y < f.H) → image f [i] X Y = 0) := by
  have hon : onImage f i := by unfold onImage; push Not; exact ⟨h1, h2.le, h3, h4.le⟩
  have hs := single_noPsf f i hW hH hS hv hon
  refine ⟨⟨?_, ?_⟩, ?_⟩
  · rintro ⟨X0, Y0, hx, hy, h⟩
    by_contra hne
    have e1 := h X0 Y0 hx hy
    rw [if_pos ⟨rfl, rfl⟩, hs X0 Y0 hx hy, if_neg (fun h => hne h.1)] at e1
    exact hp e1.symm
  · intro h
    have r1 : 0 ≤ roundPos i.x := by unfold roundPos; exact Int.floor_nonneg.2 (by linarith)
    have r2 : 0 ≤ roundPos i.y := by unfold roundPos; exact Int.floor_nonneg.2 (by linarith)
    refine ⟨roundPos i.x, roundPos i.y, ⟨r1, h.1⟩, ⟨r2, h.2.1⟩, ?_⟩
    intro X Y hX hY
    rw [hs X Y hX hY]
    by_cases hh : X = roundPos i.x ∧ Y = roundPos i.y
    · rw [if_pos hh, if_pos ⟨h, hh⟩]
    · rw [if_neg hh, if_neg (fun h => hh h.2)]
  · intro h X Y hX hY
    rw [hs X Y hX hY, if_neg (fun h' => h h'.1)]

/-- **C50, violated.** Without a PSF, a source at x = 63.6 in a 128-pixel wide image is binned into the tile of columns
0-63 but rounded to column 64, and disappears. -/
theorem C50_violated : ¬ C50_full := by
  intro h
  have hx : ⌊(63.6 : ℝ)⌋ = 63 := by norm_num
  have := h ⟨128, 64, 0, fun _ _ _ _ => 0⟩ ⟨63.6, 10, 1, 0, true⟩ (by norm_num) (by norm_num) rfl rfl (by norm_num)
    (by norm_num) (by norm_num) (by norm_num)
  rw [(C50_drawn_iff ⟨128, 64, 0, fun _ _ _ _ => 0⟩ ⟨63.6, 10, 1, 0, true⟩ (by norm_num) (by norm_num) rfl rfl
    (by norm_num) (by norm_num) (by norm_num) (by norm_num) (by norm_num)).1] at this
  have h3 := this.2.2.1
  simp only [roundPos, tileAlong, tilesX, T, hx] at h3
  have : ⌊(63.6 : ℝ) + 1 / 2⌋ = 64 := by norm_num
  rw [this] at h3
  norm_num at h3

/-- A source that is drawn: (10.2, 20.9) goes to pixel (10, 21). -/
example : SameTile ⟨128, 64, 0, fun _ _ _ _ => 0⟩ ⟨10.2, 20.9, 1, 0, true⟩ := by
  have e1 : ⌊(10.2 : ℝ)⌋ = 10 := by norm_num
  have e2 : ⌊(20.9 : ℝ)⌋ = 20 := by norm_num
  have e3 : ⌊(10.2 : ℝ) + 1 / 2⌋ = 10 := by norm_num
  have e4 : ⌊(20.9 : ℝ) + 1 / 2⌋ = 21 := by norm_num
  simp only [SameTile, roundPos, tileAlong, tilesX, tilesY, T, e1, e2, e3, e4]
  norm_num

end
end Huira.Points
