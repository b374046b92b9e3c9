import Mathlib.Algebra.Order.Floor.Defs
import Mathlib.Algebra.Order.Floor.Ring
import Mathlib.Data.Real.Archimedean
import Mathlib.Analysis.SpecialFunctions.Pow.Real
/-!
# Unresolved point sources

Models `Renderer::render_unresolved_` of `include/huira_impl/render/renderer.ipp`: binning of projected sources into
tiles (renderer.ipp 831-839), the per-tile stamping (renderer.ipp 860-977), the combination of the tiles (renderer.ipp 980-1012), the adaptive sampling of
an arc and its weights (750-826), and `RenderItem::interpolate_irradiances` (600-612).

Values are exact reals, one spectral bin at a time (the code treats the bins independently). The test `val != 0` before
adding a tile's pixel (renderer.ipp 999-1008) is dropped: adding 0 changes nothing. Parallel loops over tiles and over rows write
disjoint data, so they are modelled in index order.
-/
namespace Huira.Points

noncomputable section
open Classical

/-! ## Tiles and stamps -/

/-- `TILE_SIZE` (renderer.ipp 727). -/
def T : Int := 64

/-- A projected source: sub-pixel position, the power it carries (renderer.ipp 898-899), its effective radius, and whether the depth
buffer leaves it unobstructed (renderer.ipp 888-896). -/
structure Item where
  x : ℝ
  y : ℝ
  power : ℝ
  r : Int
  visible : Bool

/-- What is fixed for a frame: resolution, stamp radius (renderer.ipp 664-671; 0 without PSF), and the kernel chosen from the
sub-pixel fraction (defocus kernel or PSF kernel; both are stamped by the same index arithmetic). -/
structure Frame where
  W : Int
  H : Int
  S : Int
  kern : ℝ → ℝ → Int → Int → ℝ

/-- Lines 730-732. -/
def tilesX (f : Frame) : Int := (f.W + T - 1) / T
def tilesY (f : Frame) : Int := (f.H + T - 1) / T
def numTiles (f : Frame) : Nat := (tilesX f * tilesY f).toNat

/-- Line 828: sources outside the image are dropped (both ends included). -/
def onImage (f : Frame) (i : Item) : Prop := ¬ (i.x < 0 ∨ i.x > f.W ∨ i.y < 0 ∨ i.y > f.H)

/-- `std::clamp(static_cast<int>(p) / TILE_SIZE, 0, tiles - 1)` (renderer.ipp 835-836; `p ≥ 0`, so the cast is the floor). -/
def tileAlong (p : ℝ) (tiles : Int) : Int := max 0 (min (⌊p⌋ / T) (tiles - 1))

/-- `ty * tiles_x + tx` (renderer.ipp 838). -/
def tileOf (f : Frame) (i : Item) : Nat := (tileAlong i.y (tilesY f) * tilesX f + tileAlong i.x (tilesX f)).toNat

/-- The bin of tile `t` (renderer.ipp 745, 831-839). -/
def bin (f : Frame) (items : List Item) (t : Nat) : List Item :=
  items.filter fun i => decide (onImage f i ∧ tileOf f i = t)

/-- Origin and end of the local buffer of tile `t` (renderer.ipp 868-880); `margin = stamp_radius` (renderer.ipp 848). -/
def lx0 (f : Frame) (t : Nat) : Int := max 0 ((t : Int) % tilesX f * T - f.S)
def ly0 (f : Frame) (t : Nat) : Int := max 0 ((t : Int) / tilesX f * T - f.S)
def lx1 (f : Frame) (t : Nat) : Int := min f.W ((t : Int) % tilesX f * T + T + f.S)
def ly1 (f : Frame) (t : Nat) : Int := min f.H ((t : Int) / tilesX f * T + T + f.S)

/-- `local_buf(lx, ly) += v`. -/
def addAt (b : Int → Int → ℝ) (lx ly : Int) (v : ℝ) : Int → Int → ℝ :=
  fun x y => if lx = x ∧ ly = y then b x y + v else b x y

/-- Integers from `a` to `b - 1`. -/
def intRange (a b : Int) : List Int := (List.range (b - a).toNat).map fun (k : Nat) => a + (k : Int)

/-- Indices visited by the two nested stamping loops (renderer.ipp 913-927 and renderer.ipp 936-954). -/
def stampIdx (f : Frame) (t : Nat) (i : Item) : List (Int × Int) :=
  let startX := ⌊i.x⌋ - i.r
  let startY := ⌊i.y⌋ - i.r
  let crop := 2 * i.r + 1
  (intRange (max 0 (ly0 f t - startY)) (min crop (ly1 f t - startY))).flatMap fun ky =>
    (intRange (max 0 (lx0 f t - startX)) (min crop (lx1 f t - startX))).map fun kx => (kx, ky)

/-- `static_cast<int>(std::round(p))` for `p ≥ 0` (renderer.ipp 962-963). -/
def roundPos (p : ℝ) : Int := ⌊p + 1 / 2⌋

/-- One source of a bin drawn into the tile's buffer (renderer.ipp 884-968). -/
def drawItem (f : Frame) (t : Nat) (b : Int → Int → ℝ) (i : Item) : Int → Int → ℝ :=
  if i.visible = false then b
  else if f.S > 0 then
    (stampIdx f t i).foldl (fun b k =>
      addAt b (⌊i.x⌋ - i.r + k.1 - lx0 f t) (⌊i.y⌋ - i.r + k.2 - ly0 f t)
        (i.power * f.kern (i.x - ⌊i.x⌋) (i.y - ⌊i.y⌋) (k.1 + (f.S - i.r)) (k.2 + (f.S - i.r)))) b
  else if roundPos i.x ≥ lx0 f t ∧ roundPos i.x < lx1 f t ∧ roundPos i.y ≥ ly0 f t ∧ roundPos i.y < ly1 f t then
    addAt b (roundPos i.x - lx0 f t) (roundPos i.y - ly0 f t) i.power
  else b

/-- The local buffer of tile `t` (renderer.ipp 862-976). -/
def tileBuf (f : Frame) (items : List Item) (t : Nat) : Int → Int → ℝ :=
  (bin f items t).foldl (drawItem f t) fun _ _ => 0

/-- Tile `t` holds image pixel (X, Y): its bin is not empty (else `local_w` stays 0, renderer.ipp 864-866 and renderer.ipp 983-985) and the pixel lies
in its local buffer (renderer.ipp 986-988, renderer.ipp 994-997). -/
def holds (f : Frame) (items : List Item) (t : Nat) (X Y : Int) : Prop :=
  bin f items t ≠ [] ∧ lx0 f t ≤ X ∧ X < lx0 f t + (lx1 f t - lx0 f t) ∧ ly0 f t ≤ Y ∧
    Y < ly0 f t + (ly1 f t - ly0 f t)

/-- The image (renderer.ipp 980-1012). -/
def image (f : Frame) (items : List Item) (X Y : Int) : ℝ :=
  (List.range (numTiles f)).foldl (fun acc t =>
    if holds f items t X Y then acc + tileBuf f items t (X - lx0 f t) (Y - ly0 f t) else acc) 0

/-! ## Time samples and weights -/

/-- Initial parameters (renderer.ipp 764-773): the start, the recorded sample times strictly inside, the end. -/
def initialParams (N : Nat) (ts te : ℝ) : List ℝ :=
  ts :: (((List.range N).map fun (k : Nat) => if N = 1 then (0 : ℝ) else (k : ℝ) / ((N - 1 : Nat) : ℝ)).filter
    fun t => decide (ts < t ∧ t < te)) ++ [te]

/-- `dist > max_pixel_step` (renderer.ipp 747, renderer.ipp 788-792), for the projections of two parameters. -/
def far (proj : ℝ → ℝ × ℝ) (a b : ℝ) : Prop :=
  Real.sqrt (((proj b).1 - (proj a).1) * ((proj b).1 - (proj a).1) +
    ((proj b).2 - (proj a).2) * ((proj b).2 - (proj a).2)) > 3 / 4

/-- One pass of the subdivision (renderer.ipp 786-805): a midpoint is inserted into every interval whose ends are too far apart on
the image. The code goes from back to front so that an insertion does not shift the pairs still to be examined: every
pair of neighbours of the old list is examined once, which is what this recursion does. The second component is
`subdivided`. -/
def pass (proj : ℝ → ℝ × ℝ) : List ℝ → List ℝ × Bool
  | a :: b :: t =>
    let rest := pass proj (b :: t)
    if far proj a b then (a :: (a + b) / 2 :: rest.1, true) else (a :: rest.1, rest.2)
  | l => (l, false)

/-- At most `n` passes (renderer.ipp 784-785, renderer.ipp 806-809; `MAX_SUBDIVISIONS = 12`). -/
def subdivide (proj : ℝ → ℝ × ℝ) : Nat → List ℝ → List ℝ
  | 0, l => l
  | n + 1, l => if (pass proj l).2 then subdivide proj n (pass proj l).1 else (pass proj l).1

/-- The parameters of the samples of a visible interval (renderer.ipp 759-809). -/
def sampleParams (proj : ℝ → ℝ × ℝ) (N : Nat) (ts te : ℝ) : List ℝ :=
  subdivide proj 12 (initialParams N ts te)

/-- `weight` of sample `k` (renderer.ipp 813-825). -/
def weight (ps : List ℝ) (ts te : ℝ) (k : Nat) : ℝ :=
  let dt := if ps.length = 1 then te - ts
    else if k = 0 then (ps.getD 1 0 - ps.getD 0 0) / 2
    else if k = ps.length - 1 then (ps.getD k 0 - ps.getD (k - 1) 0) / 2
    else (ps.getD (k + 1) 0 - ps.getD (k - 1) 0) / 2
  dt / (te - ts)

/-- The weights of all samples of a visible interval. -/
def weights (proj : ℝ → ℝ × ℝ) (N : Nat) (iv : ℝ × ℝ) : List ℝ :=
  (List.range (sampleParams proj N iv.1 iv.2).length).map (weight (sampleParams proj N iv.1 iv.2) iv.1 iv.2)

/-- `interpolate_irradiances` (renderer.ipp 600-612; the position part of `interpolate_transform`, renderer.ipp 84-92, uses
the same index arithmetic), for one bin. The list is not empty. -/
def interp (l : List ℝ) (t : ℝ) : ℝ :=
  if l.length = 1 then l.getD 0 0
  else
    let scaled := t * ((l.length - 1 : Nat) : ℝ)
    let lo := min ⌊scaled⌋.toNat (l.length - 2)
    let frac := scaled - (lo : ℝ)
    l.getD lo 0 + frac * (l.getD (lo + 1) 0 - l.getD lo 0)

end
end Huira.Points
