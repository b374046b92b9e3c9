import Verif.PyBind.NumpyModel
import Mathlib.Tactic.IntervalCases
/-!
# C118: numpy vectors and matrices; C119: numpy images
-/
namespace Huira.PyBind
set_option linter.unusedSimpArgs false

variable {α : Type}

/-! ## Specification -/

/-- A proper numpy array: one stride per dimension, and all its elements lie in its memory. -/
structure Arr.Proper (a : Arr α) : Prop where
  item : 0 < a.item
  dims : a.strides.length = a.shape.length
  elems : ∀ idx ∈ indices a.shape, (a.get idx).isSome

/-- A one-dimensional array holds these values. -/
def Arr.Holds (a : Arr α) (xs : List α) : Prop := a.shape = [xs.length] ∧ ∀ i : ℕ, i < xs.length → a.get [i] = xs[i]?

/-- Pixel `(x, y)` of an image (`img(x, y)`). -/
def Img.at (img : Img α) (x y : ℕ) : Option (List α) := img.data[y * img.width.toNat + x]?

/-- An image with `channels` scalars per pixel as the library makes them. -/
structure Img.Proper (channels : ℕ) (img : Img α) : Prop where
  width : 0 ≤ img.width
  height : 0 ≤ img.height
  fits : img.width * img.height < 2147483648
  wfits : img.width < 2147483648
  hfits : img.height < 2147483648
  size : img.data.length = img.width.toNat * img.height.toNat
  pixels : ∀ p ∈ img.data, p.length = channels

/-! ## Row-major order -/

theorem flatMap_get {β γ : Type} (f : β → List γ) (m : ℕ) : ∀ (l : List β) (i j : ℕ) (b : β), (∀ b ∈ l, (f b).length = m) →
    l[i]? = some b → j < m → (l.flatMap f)[i * m + j]? = (f b)[j]?
  | [], _, _, _, _, h, _ => by simp at h
  | a :: l, 0, j, b, hl, h, hj => by
    simp only [List.getElem?_cons_zero, Option.some.injEq] at h
    subst h
    rw [List.flatMap_cons, Nat.zero_mul, Nat.zero_add,
      List.getElem?_append_left (by rw [hl a List.mem_cons_self]; exact hj)]
  | a :: l, i + 1, j, b, hl, h, hj => by
    rw [List.getElem?_cons_succ] at h
    have ha := hl a List.mem_cons_self
    rw [List.flatMap_cons, List.getElem?_append_right (by rw [ha]; nlinarith), ha,
      show (i + 1) * m + j - m = i * m + j by rw [Nat.succ_mul]; omega]
    exact flatMap_get f m l i j b (fun b hb => hl b (List.mem_cons_of_mem _ hb)) h hj

theorem range_get (n i : ℕ) (h : i < n) : (List.range n)[i]? = some i := by simp [h]

theorem indices_length : ∀ s : List ℕ, (indices s).length = s.prod
  | [] => rfl
  | n :: ns => by simp [indices, List.length_flatMap, indices_length ns]

theorem indices1 (n i : ℕ) (h : i < n) : (indices [n])[i]? = some [i] := by
  have := flatMap_get (fun i => (indices []).map (i :: ·)) 1 (List.range n) i 0 i (by simp [indices]) (range_get n i h)
    (by omega)
  simpa [indices] using this

theorem indices2 (h w y x : ℕ) (hy : y < h) (hx : x < w) : (indices [h, w])[y * w + x]? = some [y, x] := by
  have := flatMap_get (fun i => (indices [w]).map (i :: ·)) w (List.range h) y x y (by simp [indices_length])
    (range_get h y hy) hx
  rw [indices, this, List.getElem?_map, indices1 w x hx]
  rfl

theorem indices3 (h w c y x k : ℕ) (hy : y < h) (hx : x < w) (hk : k < c) :
    (indices [h, w, c])[(y * w + x) * c + k]? = some [y, x, k] := by
  have := flatMap_get (fun i => (indices [w, c]).map (i :: ·)) (w * c) (List.range h) y (x * c + k) y
    (by simp [indices_length]) (range_get h y hy)
    (by have : (x + 1) * c ≤ w * c := Nat.mul_le_mul_right c hx; nlinarith)
  rw [indices, show (y * w + x) * c + k = y * (w * c) + (x * c + k) by ring, this, List.getElem?_map,
    indices2 w c x k hx hk]
  rfl

theorem mem_indices : ∀ s : List ℕ, ∀ idx ∈ indices s, idx.length = s.length
  | [], idx, h => by simp [indices] at h; simp [h]
  | n :: ns, idx, h => by
    simp only [indices, List.mem_flatMap, List.mem_map] at h
    obtain ⟨i, _, t, ht, rfl⟩ := h
    simp [mem_indices ns t ht]

theorem contiguous_get (item : ℤ) (hi : 0 < item) (xs : List (Option α)) (k : ℕ) :
    contiguous item xs (k * item) = (xs[k]?).join := by
  unfold contiguous
  rw [if_pos ⟨Dvd.intro_left _ rfl, by positivity⟩, Int.mul_ediv_cancel _ (ne_of_gt hi)]
  simp

/-! ## C118 -/

theorem ofReads_some {β : Type} (xs : List (Option β)) (ys : List β) (h : xs = ys.map some) :
    Result.ofReads xs = .value ys := by
  subst h
  unfold Result.ofReads
  rw [if_pos (by simp [List.all_eq_true])]
  simp [List.filterMap_map]

theorem map_eq_map_some {β : Type} (f : ℕ → Option β) (ys : List β) (h : ∀ i : ℕ, i < ys.length → f i = ys[i]?) :
    (List.range ys.length).map f = ys.map some := by
  refine List.ext_getElem? (fun i => ?_)
  by_cases hi : i < ys.length
  · simp [hi, h i hi, List.getElem?_eq_getElem hi]
  · simp [hi]

/-- **C118 (vectors).** A contiguous array, or one of another scalar type, arrives as it is. -/
theorem C118_vector_partial (a : Arr α) (ha : a.Proper) (xs : List α) (hx : a.Holds xs)
    (hc : a.strides = [a.item] ∨ a.same = false) : vecOf xs.length a = .value xs := by
  have key : ∀ i : ℕ, i < xs.length → (loose a).ptr i = xs[i]? := by
    intro i hi
    rw [← hx.2 i hi]
    unfold loose
    split
    · rename_i hs
      rcases hc with hc | hc
      · simp [Arr.ptr, Arr.get, hc, dotIdx]
      · rw [hc] at hs; exact absurd hs (by decide)
    · simp only [Arr.ptr, zero_add]
      rw [contiguous_get _ ha.item, Arr.flat, hx.1, List.getElem?_map, indices1 _ i hi]
      rfl
  have hs : (loose a).shape = [xs.length] := by unfold loose; split <;> exact hx.1
  unfold vecOf
  simp only [hs]
  rw [if_neg (by simp)]
  exact ofReads_some _ _ (map_eq_map_some _ _ key)

/-- C118, refusal: another shape is refused, whatever the layout. -/
theorem C118_refused_partial (n : ℕ) (a : Arr α) : vecOf n a = .throws ↔ a.shape ≠ [n] := by
  have hs : (loose a).shape = a.shape := by unfold loose; split <;> rfl
  unfold vecOf
  simp only [hs]
  constructor
  · intro h he
    rw [he] at h
    simp only [List.length_singleton, List.head?_cons, ne_eq, not_true_eq_false, or_self, if_false] at h
    unfold Result.ofReads at h
    split at h <;> cases h
  · intro h
    rw [if_pos]
    match hh : a.shape with
    | [] => simp
    | [m] => rw [hh] at h; simpa using h
    | _ :: _ :: _ => simp

/-- **C118 (matrices).** A 3x3 array of any layout arrives with row and column in place. -/
theorem C118_matrix_partial (a : Arr α) :
    (a.shape = [3, 3] → ∃ m, matOf a = .value m ∧ ∀ row col : ℕ, row < 3 → col < 3 → m col row = a.get [row, col]) ∧
    (a.shape ≠ [3, 3] → matOf a = .throws) := by
  constructor
  · intro h
    refine ⟨_, by unfold matOf; rw [if_neg (by simp [h])], fun row col hr hc => ?_⟩
    rw [Arr.flat, h, List.getElem?_map, indices2 3 3 row col hr hc]
    rfl
  · intro h
    unfold matOf
    rw [if_pos h]

/-- C118, round trips. -/
theorem C118_roundtrip_partial (xs : List α) (m : Mat α) :
    (vecTo xs).Holds xs ∧ vecOf xs.length (vecTo xs) = .value xs ∧
    ∀ row col : ℕ, row < 3 → col < 3 → (matTo m).get [row, col] = some (m col row) := by
  have h1 : (vecTo xs).Holds xs := by
    refine ⟨rfl, fun i hi => ?_⟩
    simp only [Arr.get, vecTo, dotIdx, zero_add, add_zero]
    rw [contiguous_get 8 (by norm_num)]
    simp [hi, List.getElem?_eq_getElem hi]
  refine ⟨h1, ?_, ?_⟩
  · refine C118_vector_partial (vecTo xs) ⟨by norm_num [vecTo], rfl, ?_⟩ xs h1 (Or.inl rfl)
    intro idx hidx
    have hl := mem_indices _ idx hidx
    simp only [vecTo, indices, List.mem_flatMap, List.mem_range, List.map_cons, List.map_nil, List.mem_singleton] at hidx
    obtain ⟨i, hi, rfl⟩ := hidx
    rw [h1.2 i hi]
    simp [hi]
  · intro row col hr hc
    have hg := flatMap_get (fun row => (List.range 3).map fun col => some (m col row)) 3 (List.range 3) row col row
      (by simp) (range_get 3 row hr) hc
    simp only [Arr.get, matTo, dotIdx, zero_add, add_zero]
    rw [show (row : ℤ) * 24 + (col : ℤ) * 8 = ((row * 3 + col : ℕ) : ℤ) * 8 by push_cast; ring,
      contiguous_get 8 (by norm_num), hg]
    simp [hc]

/-- Full statement: every one-dimensional array of the right length arrives as it is. -/
def C118_full : Prop :=
  ∀ (α : Type) (a : Arr α) (xs : List α), a.Proper → a.Holds xs → vecOf xs.length a = .value xs

/-- `np.array([1., 2., 3.])[::-1]`: the pointer is at the last element, the stride is negative. -/
def reversed : Arr ℕ where
  mem := fun b => if b = 0 then some 1 else if b = 8 then some 2 else if b = 16 then some 3 else none
  base := 16
  shape := [3]
  strides := [-8]
  item := 8
  same := true

/-- The first column of a 3x3 matrix, `m[:, 0]`. -/
def column : Arr ℕ where
  mem := contiguous 8 ((List.range 9).map some)
  base := 0
  shape := [3]
  strides := [24]
  item := 8
  same := true

theorem reversed_proper : reversed.Proper ∧ reversed.Holds [3, 2, 1] := by
  refine ⟨⟨by decide, rfl, by decide⟩, rfl, ?_⟩
  intro i hi
  simp only [List.length_cons, List.length_nil] at hi
  interval_cases i <;> decide

theorem column_proper : column.Proper ∧ column.Holds [0, 3, 6] := by
  refine ⟨⟨by decide, rfl, by decide⟩, rfl, ?_⟩
  intro i hi
  simp only [List.length_cons, List.length_nil] at hi
  interval_cases i <;> decide

/-- **C118 is violated**: the strides of a vector argument are ignored. A reversed array is read beyond the end of its
memory; a column of a matrix arrives as its first row. -/
theorem C118_violated : vecOf 3 reversed = .outOfBounds ∧ vecOf 3 column = .value [0, 1, 2] ∧ ¬ C118_full := by
  have h1 : vecOf 3 reversed = .outOfBounds := by rfl
  have h2 : vecOf 3 column = .value [0, 1, 2] := by rfl
  refine ⟨h1, h2, fun h => ?_⟩
  have := h ℕ reversed [3, 2, 1] reversed_proper.1 reversed_proper.2
  change vecOf 3 reversed = _ at this
  rw [h1] at this
  cases this

/-! ## C119 -/

theorem toInt_id (n : ℤ) (h0 : 0 ≤ n) (h1 : n < 2147483648) : toInt n = n := by
  unfold toInt
  omega

theorem toSize_id (n : ℤ) (h0 : 0 ≤ n) (h1 : n < 2147483648) : toSize n = n.toNat := by
  unfold toSize
  omega

theorem flatten_get (m : ℕ) (l : List (List α)) (i j : ℕ) (hl : ∀ b ∈ l, b.length = m) (hj : j < m) :
    l.flatten[i * m + j]? = l[i]?.bind (·[j]?) := by
  cases h : l[i]? with
  | some b =>
    have := flatMap_get id m l i j b hl h hj
    rw [List.flatMap_id] at this
    rw [this]; rfl
  | none =>
    rw [List.getElem?_eq_none_iff] at h
    have hlen : l.flatten.length = l.length * m := by
      rw [List.length_flatten]
      have : l.map List.length = l.map (fun _ => m) := List.map_congr_left hl
      rw [this]; simp
    have := Nat.mul_le_mul_right m h
    rw [Option.bind_none, List.getElem?_eq_none_iff, hlen]
    omega

/-- The array has the shape of an image of `channels` scalars per pixel, `H` high and `W` wide. -/
def ImageShaped (channels H W : ℕ) (a : Arr α) : Prop :=
  (channels = 1 ∧ a.shape = [H, W]) ∨ a.shape = [H, W, channels]

/-- The scalar an array has for channel `c` at row `y` and column `x`. -/
def Arr.channel (a : Arr α) (y x c : ℕ) : Option α := if a.shape.length = 2 then a.get [y, x] else a.get [y, x, c]

theorem flat_channel (channels H W : ℕ) (a : Arr α) (h : ImageShaped channels H W a) (y x c : ℕ) (hy : y < H) (hx : x < W)
    (hc : c < channels) : (a.flat[(y * W + x) * channels + c]?).join = a.channel y x c := by
  rcases h with ⟨rfl, h⟩ | h
  · have : c = 0 := by omega
    subst this
    rw [Arr.flat, h, List.getElem?_map, Nat.mul_one, Nat.add_zero, indices2 H W y x hy hx]
    simp [Arr.channel, h]
  · rw [Arr.flat, h, List.getElem?_map, indices3 H W channels y x c hy hx hc]
    simp [Arr.channel, h]

theorem flat_some (a : Arr α) (ha : a.Proper) (k : ℕ) (hk : k < a.shape.prod) : ((a.flat[k]?).join).isSome := by
  have hl : k < (indices a.shape).length := by rw [indices_length]; exact hk
  rw [Arr.flat, List.getElem?_map, List.getElem?_eq_getElem hl]
  exact ha.elems _ (List.getElem_mem hl)

theorem filterMap_get {β : Type} (xs : List (Option β)) (h : ∀ x ∈ xs, x.isSome) (i : ℕ) :
    (xs.filterMap id)[i]? = (xs[i]?).join := by
  induction xs generalizing i with
  | nil => simp
  | cons x xs ih =>
    have hx := h x List.mem_cons_self
    obtain ⟨v, rfl⟩ := Option.isSome_iff_exists.1 hx
    rw [List.filterMap_cons]
    simp only [id]
    cases i with
    | zero => rfl
    | succ i =>
      rw [List.getElem?_cons_succ, List.getElem?_cons_succ]
      exact ih (fun x hx => h x (List.mem_cons_of_mem _ hx)) i

theorem filterMap_length {β : Type} (xs : List (Option β)) (h : ∀ x ∈ xs, x.isSome) :
    (xs.filterMap id).length = xs.length := by
  induction xs with
  | nil => rfl
  | cons x xs ih =>
    obtain ⟨v, rfl⟩ := Option.isSome_iff_exists.1 (h x List.mem_cons_self)
    rw [List.filterMap_cons]
    simp only [id]
    rw [List.length_cons, List.length_cons, ← ih (fun x hx => h x (List.mem_cons_of_mem _ hx))]
    rfl

theorem imageOf_eq (channels maxSize : ℕ) (a : Arr α) (h w : ℤ) (n : ℕ) (h1 : imageShape channels a.shape = some (h, w))
    (h2 : storage maxSize w h = some n) :
    imageOf channels maxSize a = fillImage channels a.flat n (pixelCount w h) w h := by
  unfold imageOf
  rw [h1]
  dsimp only
  rw [h2]

theorem fillImage_eq (channels : ℕ) (src : List (Option α)) (n : ℕ) (w h : ℤ)
    (hr : ((List.range n).map (pixelAt channels src)).all (·.all Option.isSome) = true) :
    fillImage channels src n n w h =
      .value ⟨((List.range n).map (pixelAt channels src)).map (·.filterMap id), w, h⟩ := by
  unfold fillImage
  rw [if_neg (lt_irrefl _), if_pos hr]

theorem pixel_range (W H y x : ℕ) (hy : y < H) (hx : x < W) : y * W + x < W * H := by
  have : (y + 1) * W ≤ H * W := Nat.mul_le_mul_right _ hy
  rw [Nat.succ_mul, Nat.mul_comm H W] at this
  omega

/-- **C119 (from numpy).** An array of image shape with fewer than 2147483648 pixels, in any layout, becomes the image with the
same scalars: row `y`, column `x` of the array is pixel `(x, y)`. -/
theorem C119_from_partial (channels maxSize H W : ℕ) (hch : 0 < channels) (a : Arr α) (ha : a.Proper)
    (hs : ImageShaped channels H W a) (hH : H < 2147483648) (hW : W < 2147483648) (hHW : W * H < 2147483648) (hm : W * H ≤ maxSize) :
    ∃ img, imageOf channels maxSize a = .value img ∧ img.Proper channels ∧ img.width = W ∧ img.height = H ∧
      ∀ y x c : ℕ, y < H → x < W → c < channels → (img.at x y).bind (·[c]?) = a.channel y x c := by
  have hH' : (H : ℤ) < 2147483648 := by omega
  have hW' : (W : ℤ) < 2147483648 := by omega
  have hWH : (W : ℤ) * (H : ℤ) = ((W * H : ℕ) : ℤ) := (Nat.cast_mul W H).symm
  have hmul : (W : ℤ) * (H : ℤ) < 2147483648 := by rw [hWH]; omega
  have hmul0 : (0 : ℤ) ≤ (W : ℤ) * (H : ℤ) := by rw [hWH]; exact Int.natCast_nonneg _
  have hshape : imageShape channels a.shape = some ((H : ℤ), (W : ℤ)) := by
    have e1 := toInt_id H (Int.natCast_nonneg _) hH'
    have e2 := toInt_id W (Int.natCast_nonneg _) hW'
    rcases hs with ⟨rfl, h⟩ | h
    · rw [h]; simp only [imageShape, e1, e2, if_true]
    · rw [h]; simp only [imageShape, e1, e2, if_true]
  have hprod : a.shape.prod = W * H * channels := by
    rcases hs with ⟨rfl, h⟩ | h
    · rw [h]; simp only [List.prod_cons, List.prod_nil]; ring
    · rw [h]; simp only [List.prod_cons, List.prod_nil]; ring
  have hst : storage maxSize W H = some (W * H) := by
    unfold storage
    rw [toInt_id _ hmul0 hmul, toSize_id _ hmul0 hmul]
    have : ((W : ℤ) * (H : ℤ)).toNat = W * H := by rw [hWH]; exact Int.toNat_natCast _
    simp only [this, hm, if_true]
  have hpix : pixelCount W H = W * H := by
    rw [pixelCount, toSize_id _ (Int.natCast_nonneg _) hW', toSize_id _ (Int.natCast_nonneg _) hH', Int.toNat_natCast,
      Int.toNat_natCast]
    exact Nat.mod_eq_of_lt (lt_trans hHW (by norm_num))
  have hall : ∀ i, i < W * H → ∀ p ∈ pixelAt channels a.flat i, p.isSome := by
    intro i hi p hp
    simp only [pixelAt, List.mem_map, List.mem_range] at hp
    obtain ⟨c, hc, rfl⟩ := hp
    refine flat_some a ha _ ?_
    rw [hprod]
    have : (i + 1) * channels ≤ W * H * channels := Nat.mul_le_mul_right _ hi
    rw [Nat.succ_mul] at this
    omega
  have hreads : ((List.range (W * H)).map (pixelAt channels a.flat)).all (·.all Option.isSome) = true := by
    simp only [List.all_map, List.all_eq_true, List.mem_range, Function.comp]
    exact hall
  refine ⟨⟨((List.range (W * H)).map (pixelAt channels a.flat)).map (·.filterMap id), W, H⟩, ?_, ?_, rfl, rfl, ?_⟩
  · rw [imageOf_eq _ _ _ _ _ _ hshape hst, hpix]
    exact fillImage_eq _ _ _ _ _ hreads
  · refine ⟨Int.natCast_nonneg _, Int.natCast_nonneg _, hmul, hW', hH', by simp, ?_⟩
    intro p hp
    simp only [List.map_map, List.mem_map, List.mem_range, Function.comp] at hp
    obtain ⟨i, hi, rfl⟩ := hp
    rw [filterMap_length _ (hall i hi)]
    simp [pixelAt]
  · intro y x c hy hx hc
    have hi : y * W + x < W * H := pixel_range W H y x hy hx
    rw [← flat_channel channels H W a hs y x c hy hx hc]
    simp only [Img.at, Int.toNat_natCast, List.map_map, List.getElem?_map, range_get _ _ hi, Option.map_some,
      Option.bind_some, Function.comp]
    rw [filterMap_get _ (hall _ hi)]
    simp [pixelAt, hc]

/-- C119, refusal: below that size exactly the arrays of another shape are refused. -/
theorem C119_refused_partial (channels maxSize : ℕ) (a : Arr α) (h : ∀ H W, ¬ ImageShaped channels H W a) :
    imageOf channels maxSize a = .throws := by
  have : imageShape channels a.shape = none := by
    unfold imageShape
    split
    · rename_i H W hs
      rw [if_neg]
      exact fun hc => h H W (Or.inl ⟨hc, hs⟩)
    · rename_i H W c hs
      rw [if_neg]
      exact fun hc => h H W (Or.inr (by rw [hs, hc]))
    · rfl
  unfold imageOf
  rw [this]

theorem view_shape (channels item : ℕ) (img : Img α) :
    ImageShaped channels img.height.toNat img.width.toNat (img.view channels item) ∧
    ImageShaped channels img.height.toNat img.width.toNat (img.toNumpy channels item) := by
  unfold ImageShaped Img.view Img.toNumpy
  by_cases h : channels = 1 <;> simp [h]

theorem channel_address (channels item : ℕ) (img : Img α) (hw : 0 ≤ img.width) (y x c : ℕ) (hc : c < channels) :
    (img.view channels item).channel y x c = contiguous item (img.data.flatten.map some)
      ((((y * img.width.toNat + x) * channels + c : ℕ) : ℤ) * (item : ℤ)) ∧
    (img.toNumpy channels item).channel y x c =
      contiguous item ((img.data.flatten.take (img.width.toNat * img.height.toNat * channels)).map some)
      ((((y * img.width.toNat + x) * channels + c : ℕ) : ℤ) * (item : ℤ)) := by
  obtain ⟨W, hW⟩ := Int.eq_ofNat_of_zero_le hw
  by_cases h : channels = 1
  · subst h
    have : c = 0 := by omega
    subst this
    constructor <;>
      simp only [Arr.channel, Img.view, Img.toNumpy, if_true, List.length_cons, List.length_nil, Arr.get, dotIdx, hW] <;>
      · congr 1
        push_cast
        simp
        ring
  · constructor <;>
      simp only [Arr.channel, Img.view, Img.toNumpy, h, if_false, List.length_cons, List.length_nil, Arr.get, dotIdx, hW] <;>
      norm_num <;>
      · congr 1
        ring

/-- **C119 (views).** `np.asarray(img)` and `img.to_numpy()` have at row `y`, column `x` the scalars of pixel `(x, y)`; all
their elements lie in memory they may read. -/
theorem C119_view_partial (channels item : ℕ) (hi : 0 < item) (img : Img α) (hp : img.Proper channels) (y x c : ℕ)
    (hy : y < img.height.toNat) (hx : x < img.width.toNat) (hc : c < channels) :
    (img.view channels item).channel y x c = (img.at x y).bind (·[c]?) ∧
    (img.toNumpy channels item).channel y x c = (img.at x y).bind (·[c]?) ∧
    ((img.at x y).bind (·[c]?)).isSome := by
  obtain ⟨e1, e2⟩ := channel_address channels item img hp.width y x c hc
  have hr := pixel_range _ _ _ _ hy hx
  have hflat : img.data.flatten[(y * img.width.toNat + x) * channels + c]? = (img.at x y).bind (·[c]?) := by
    rw [flatten_get channels img.data _ c hp.pixels hc]; rfl
  have hsome : ((img.at x y).bind (·[c]?)).isSome := by
    have h1 : y * img.width.toNat + x < img.data.length := by rw [hp.size]; exact hr
    rw [Img.at, List.getElem?_eq_getElem h1, Option.bind_some]
    have := hp.pixels _ (List.getElem_mem h1)
    simp [this, hc]
  have hlt : (y * img.width.toNat + x) * channels + c < img.width.toNat * img.height.toNat * channels := by
    have : (y * img.width.toNat + x + 1) * channels ≤ img.width.toNat * img.height.toNat * channels :=
      Nat.mul_le_mul_right _ hr
    rw [Nat.succ_mul] at this
    omega
  refine ⟨?_, ?_, hsome⟩
  · rw [e1, contiguous_get _ (by exact_mod_cast hi), List.getElem?_map, hflat]
    cases (img.at x y).bind (·[c]?) <;> rfl
  · rw [e2, contiguous_get _ (by exact_mod_cast hi), List.getElem?_map, List.getElem?_take_of_lt hlt, hflat]
    cases (img.at x y).bind (·[c]?) <;> rfl

/-- C119, writing: different elements of a view are different scalars of the image, so that a write through the view
changes one scalar of one pixel. -/
theorem C119_distinct_partial (channels item : ℕ) (hi : 0 < item) (img : Img α) (hw : 0 ≤ img.width) (y x c y' x' c' : ℕ)
    (hx : x < img.width.toNat) (hx' : x' < img.width.toNat) (hc : c < channels) (hc' : c' < channels)
    (h : dotIdx [y, x, c] [(item : ℤ) * channels * img.width, item * channels, item] =
      dotIdx [y', x', c'] [(item : ℤ) * channels * img.width, item * channels, item]) : y = y' ∧ x = x' ∧ c = c' := by
  obtain ⟨W, hW⟩ := Int.eq_ofNat_of_zero_le hw
  rw [hW] at hx hx' h
  simp only [dotIdx, Int.toNat_natCast] at h hx hx'
  have e : ((((y * W + x) * channels + c : ℕ) : ℤ)) * item = (((y' * W + x') * channels + c' : ℕ) : ℤ) * item := by
    push_cast
    push_cast at h
    linarith
  have hi' : (item : ℤ) ≠ 0 := by exact_mod_cast (ne_of_gt hi)
  have e2 : (y * W + x) * channels + c = (y' * W + x') * channels + c' := by
    have := mul_right_cancel₀ hi' e
    exact_mod_cast this
  have hch : 0 < channels := by omega
  have d1 : ((y * W + x) * channels + c) / channels = y * W + x := by
    rw [Nat.mul_comm, Nat.mul_add_div hch, Nat.div_eq_of_lt hc, Nat.add_zero]
  have d1' : ((y' * W + x') * channels + c') / channels = y' * W + x' := by
    rw [Nat.mul_comm, Nat.mul_add_div hch, Nat.div_eq_of_lt hc', Nat.add_zero]
  have e3 : y * W + x = y' * W + x' := by rw [← d1, ← d1', e2]
  have hc2 : c = c' := by rw [e3] at e2; omega
  have hWp : 0 < W := by omega
  have d2 : (y * W + x) / W = y := by rw [Nat.mul_comm, Nat.mul_add_div hWp, Nat.div_eq_of_lt hx, Nat.add_zero]
  have d2' : (y' * W + x') / W = y' := by rw [Nat.mul_comm, Nat.mul_add_div hWp, Nat.div_eq_of_lt hx', Nat.add_zero]
  have hy : y = y' := by rw [← d2, ← d2', e3]
  exact ⟨hy, by rw [hy] at e3; omega, hc2⟩

/-- The elements of a view or copy lie in its memory. -/
theorem view_proper (channels item : ℕ) (hi : 0 < item) (img : Img α) (hp : img.Proper channels) :
    (img.toNumpy channels item).Proper := by
  refine ⟨by simpa [Img.toNumpy] using hi, by unfold Img.toNumpy; by_cases h : channels = 1 <;> simp [h], ?_⟩
  intro idx hidx
  by_cases h : channels = 1
  · have hs : (img.toNumpy channels item).shape = [img.height.toNat, img.width.toNat] := by simp [Img.toNumpy, h]
    rw [hs] at hidx
    simp only [indices, List.mem_flatMap, List.mem_map, List.mem_range, List.mem_singleton] at hidx
    obtain ⟨y, hy, t, ⟨x, hx, u, rfl, rfl⟩, rfl⟩ := hidx
    obtain ⟨_, e, hsome⟩ := C119_view_partial channels item hi img hp y x 0 hy hx (by omega)
    rw [Arr.channel, hs] at e
    simp only [List.length_cons, List.length_nil, if_true] at e
    rw [e]; exact hsome
  · have hs : (img.toNumpy channels item).shape = [img.height.toNat, img.width.toNat, channels] := by simp [Img.toNumpy, h]
    rw [hs] at hidx
    simp only [indices, List.mem_flatMap, List.mem_map, List.mem_range, List.mem_singleton] at hidx
    obtain ⟨y, hy, t, ⟨x, hx, u, ⟨c, hc, v, rfl, rfl⟩, rfl⟩, rfl⟩ := hidx
    obtain ⟨_, e, hsome⟩ := C119_view_partial channels item hi img hp y x c hy hx hc
    rw [Arr.channel, hs] at e
    simp only [List.length_cons, List.length_nil] at e
    rw [if_neg (by decide)] at e
    rw [e]; exact hsome

/-- **C119 (round trip).** An image made from `img.to_numpy()` is the image. -/
theorem C119_roundtrip_partial (channels item maxSize : ℕ) (hch : 0 < channels) (hi : 0 < item) (img : Img α)
    (hp : img.Proper channels) (hm : img.width.toNat * img.height.toNat ≤ maxSize) :
    imageOf channels maxSize (img.toNumpy channels item) = .value img := by
  have hw := hp.width
  have hh := hp.height
  have hwf := hp.wfits
  have hhf := hp.hfits
  obtain ⟨W, hW⟩ := Int.eq_ofNat_of_zero_le hw
  obtain ⟨H, hH⟩ := Int.eq_ofNat_of_zero_le hh
  have hfit : img.width.toNat * img.height.toNat < 2147483648 := by
    have := hp.fits
    rw [hW, hH] at this ⊢
    simp only [Int.toNat_natCast]
    have e : (W : ℤ) * (H : ℤ) = ((W * H : ℕ) : ℤ) := (Nat.cast_mul W H).symm
    change (W : ℤ) * (H : ℤ) < _ at this
    rw [e] at this
    omega
  obtain ⟨img', h1, h2, h3, h4, h5⟩ := C119_from_partial channels maxSize img.height.toNat img.width.toNat hch
    (img.toNumpy channels item) (view_proper channels item hi img hp) (view_shape channels item img).2 (by omega) (by omega)
    hfit hm
  rw [h1]
  congr 1
  have hw' : img'.width = img.width := by rw [h3]; omega
  have hh' : img'.height = img.height := by rw [h4]; omega
  have hd : img'.data = img.data := by
    refine List.ext_getElem? (fun i => ?_)
    by_cases hi' : i < img.width.toNat * img.height.toNat
    · have hWpos : 0 < img.width.toNat := Nat.pos_of_ne_zero (fun h => by rw [h] at hi'; simp at hi')
      have hy : i / img.width.toNat < img.height.toNat := (Nat.div_lt_iff_lt_mul hWpos).2 (by rwa [Nat.mul_comm])
      have hx : i % img.width.toNat < img.width.toNat := Nat.mod_lt _ hWpos
      have hidx : i / img.width.toNat * img.width.toNat + i % img.width.toNat = i := by
        rw [Nat.mul_comm]; exact Nat.div_add_mod _ _
      have hl1 : i < img.data.length := by rw [hp.size]; exact hi'
      have hl2 : i < img'.data.length := by rw [h2.size, hw', hh']; exact hi'
      rw [List.getElem?_eq_getElem hl1, List.getElem?_eq_getElem hl2]
      congr 1
      have q1 := hp.pixels _ (List.getElem_mem hl1)
      have q2 := h2.pixels _ (List.getElem_mem hl2)
      refine List.ext_getElem? (fun c => ?_)
      by_cases hc : c < channels
      · have e1 := h5 _ _ c hy hx hc
        have e2 := (C119_view_partial channels item hi img hp _ _ c hy hx hc).2.1
        rw [e2, Img.at, Img.at, hw', hidx, List.getElem?_eq_getElem hl1, List.getElem?_eq_getElem hl2] at e1
        exact e1
      · rw [List.getElem?_eq_none (by omega), List.getElem?_eq_none (by omega)]
    · rw [List.getElem?_eq_none (by rw [h2.size, hw', hh']; omega), List.getElem?_eq_none (by rw [hp.size]; omega)]
  cases img; cases img'
  simp only at hd hw' hh'
  subst hd hw' hh'
  rfl

/-- Full statement: every array of image shape becomes the image with the same scalars or is refused with an
exception. -/
def C119_full : Prop :=
  ∀ (α : Type) (channels maxSize H W : ℕ) (a : Arr α), 0 < channels → a.Proper → ImageShaped channels H W a →
    imageOf channels maxSize a = .throws ∨
    ∃ img, imageOf channels maxSize a = .value img ∧ img.width = W ∧ img.height = H

/-- An array of zeros (`np.zeros((H, W), dtype=np.uint8)`). -/
def zeros (H W : ℕ) : Arr ℕ := ⟨fun _ => some 0, 0, [H, W], [W, 1], 1, true⟩

theorem zeros_proper (H W : ℕ) : (zeros H W).Proper := ⟨Int.one_pos, rfl, fun _ _ => rfl⟩

/-- **C119 is violated** for large arrays: the number of pixels of the image is computed as a product of `int`s. For 65536
by 65536 pixels it is 0, and the copying loop writes beyond the empty storage; a height of 4294967298 becomes 2. -/
theorem C119_violated (maxSize : ℕ) :
    imageOf 1 maxSize (zeros 65536 65536) = .outOfBounds ∧
    (imageShape 1 (zeros 4294967298 1).shape = some (2, 1)) ∧ ¬ C119_full := by
  have hs : imageShape 1 (zeros 65536 65536).shape = some (65536, 65536) := by
    simp only [imageShape, zeros, if_true]
    congr 1
  have hst : storage maxSize 65536 65536 = some 0 := by
    unfold storage
    have : toSize (toInt (65536 * 65536)) = 0 := by unfold toSize toInt; norm_num
    simp only [this, Nat.zero_le, if_true]
  have h1 : imageOf 1 maxSize (zeros 65536 65536) = .outOfBounds := by
    rw [imageOf_eq _ _ _ _ _ _ hs hst]
    unfold fillImage
    rw [if_pos (by unfold pixelCount toSize; norm_num; decide)]
  refine ⟨h1, ?_, fun h => ?_⟩
  · simp only [imageShape, zeros, if_true]
    congr 1
  · rcases h ℕ 1 maxSize 65536 65536 (zeros 65536 65536) (by omega) (zeros_proper _ _) (Or.inl ⟨rfl, rfl⟩) with h' | ⟨_, h', _⟩
    · rw [h1] at h'; cases h'
    · rw [h1] at h'; cases h'

/-- A 2x2 colour image and a Fortran-ordered array, to show that the hypotheses can be met. -/
example : (⟨[[1, 2, 3], [4, 5, 6], [7, 8, 9], [10, 11, 12]], 2, 2⟩ : Img ℕ).Proper 3 := by
  refine ⟨by decide, by decide, by decide, by decide, by decide, by decide, by decide⟩

example : (⟨contiguous 1 [some 1, some 3, some 2, some 4], 0, [2, 2], [1, 2], 1, true⟩ : Arr ℕ).Proper ∧
    (∃ img, imageOf 1 100 (⟨contiguous 1 [some 1, some 3, some 2, some 4], 0, [2, 2], [1, 2], 1, true⟩ : Arr ℕ) = .value img ∧
      img.data = [[1], [2], [3], [4]]) := by
  refine ⟨⟨by decide, rfl, by decide⟩, ?_⟩
  refine ⟨⟨[[1], [2], [3], [4]], 2, 2⟩, ?_, rfl⟩
  rw [imageOf_eq 1 100 _ 2 2 4 (by decide) (by decide)]
  rfl

end Huira.PyBind
