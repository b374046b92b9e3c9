import Verif.Image.Props
/-!
# C17: pixels addressed by floating-point coordinates

`operator()(const Pixel&)` and `at(const Pixel&)` (image.ipp 220-249, 325-356): each coordinate is converted with
`static_cast<int>`, which is undefined for NaN, infinities and numbers beyond `int`; then only the upper bounds are tested.
-/
set_option linter.unusedSimpArgs false
namespace Huira.Image

/-- A floating-point coordinate. -/
inductive Coord where
  | nan
  | inf (positive : Bool)
  | fin (q : ℚ)

/-- `static_cast<int>` (image.ipp 224-225, 329-330): truncation; `none` where it is undefined. -/
def Coord.toInt : Coord → Option Int
  | .nan => none
  | .inf _ => none
  | .fin q => if -(2 ^ 31) ≤ trunc q ∧ trunc q < 2 ^ 31 then some (trunc q) else none

/-- `at(const Pixel&)` (image.ipp 325-356) -/
def atPixel (w h : Nat) (x y : Coord) : Access :=
  match x.toInt, y.toInt with
  | some i, some j => if i ≥ w ∨ j ≥ h then .throw else touch (w * h) (toLinear w i j)
  | _, _ => .ub

/-- `operator()(const Pixel&)` in a release build (image.ipp 220-249) -/
def callPixel (w h : Nat) (x y : Coord) : Access :=
  match x.toInt, y.toInt with
  | some i, some j => touch (w * h) (toLinear w i j)
  | _, _ => .ub

/-- The point `(x, y)` lies in the picture. -/
def Inside (w h : Nat) (x y : ℚ) : Prop := 0 ≤ x ∧ x < w ∧ 0 ≤ y ∧ y < h

theorem trunc_nonneg {q : ℚ} (h : 0 ≤ q) : trunc q = ⌊q⌋ := if_pos h

theorem toInt_nonneg {q : ℚ} (h : 0 ≤ q) (hq : q < 2 ^ 31) : (Coord.fin q).toInt = some ⌊q⌋ := by
  have h1 : (0 : ℤ) ≤ ⌊q⌋ := Int.floor_nonneg.mpr h
  have h2 : ⌊q⌋ < 2 ^ 31 := Int.floor_lt.mpr (by push_cast; exact hq)
  simp only [Coord.toInt, trunc_nonneg h]
  rw [if_pos ⟨by omega, h2⟩]

theorem toInt_above_neg_one {q : ℚ} (h : -1 < q) (hq : q ≤ 0) : (Coord.fin q).toInt = some 0 := by
  have ht : trunc q = 0 := by
    unfold trunc
    split
    · rw [le_antisymm hq ‹_›]; exact Int.floor_zero
    · exact Int.ceil_eq_zero_iff.mpr ⟨h, hq⟩
  simp only [Coord.toInt, ht]
  rw [if_pos ⟨by norm_num, by norm_num⟩]

/-- C17 for floating-point coordinates, in full: a point of the picture addresses the pixel it lies in, every other point
throws. -/
def C17_pixel_full (w h : Nat) : Prop :=
  (∀ x y : ℚ, Inside w h x y → atPixel w h (.fin x) (.fin y) = .elem (⌊y⌋ * w + ⌊x⌋).toNat) ∧
    (∀ x y : ℚ, ¬ Inside w h x y → atPixel w h (.fin x) (.fin y) = .throw) ∧
      (∀ y, atPixel w h .nan y = .throw) ∧ ∀ b y, atPixel w h (.inf b) y = .throw

/-- **C17, points of the picture (partial).** In pictures whose sides fit `int`: `at` and `()` of a point of the picture are
the pixel the point lies in, the one `at(int, int)` gives for the whole parts; `at` throws for points to the right or below
that an `int` can count. -/
theorem C17_pixel_partial (w h : Nat) (hw : w < 2 ^ 31) (hh : h < 2 ^ 31) :
    (∀ x y : ℚ, Inside w h x y → atPixel w h (.fin x) (.fin y) = .elem (⌊y⌋ * w + ⌊x⌋).toNat ∧
      callPixel w h (.fin x) (.fin y) = .elem (⌊y⌋ * w + ⌊x⌋).toNat ∧
      at2 w h ⌊x⌋ ⌊y⌋ = .elem (⌊y⌋ * w + ⌊x⌋).toNat ∧ (⌊y⌋ * w + ⌊x⌋).toNat < w * h) ∧
    (∀ x y : ℚ, 0 ≤ x → 0 ≤ y → x < 2 ^ 31 → y < 2 ^ 31 → ¬ Inside w h x y → atPixel w h (.fin x) (.fin y) = .throw) := by
  have bound : ∀ {q : ℚ} {n : Nat}, n < 2 ^ 31 → q < n → q < 2 ^ 31 := by
    intro q n hn hq
    have : (n : ℚ) < 2 ^ 31 := by exact_mod_cast hn
    exact hq.trans this
  constructor
  · rintro x y ⟨x0, x1, y0, y1⟩
    have hr : InRange w h ⌊x⌋ ⌊y⌋ := ⟨Int.floor_nonneg.mpr x0, Int.floor_lt.mpr (by exact_mod_cast x1),
      Int.floor_nonneg.mpr y0, Int.floor_lt.mpr (by exact_mod_cast y1)⟩
    have hl := linear_range w h _ _ hr
    have ht : touch (w * h) (toLinear w ⌊x⌋ ⌊y⌋) = .elem (⌊y⌋ * w + ⌊x⌋).toNat := by
      unfold touch; rw [if_pos hl]; rfl
    obtain ⟨r1, r2, r3, r4⟩ := hr
    refine ⟨?_, ?_, ?_, ?_⟩
    · simp only [atPixel, toInt_nonneg x0 (bound hw x1), toInt_nonneg y0 (bound hh y1)]
      rw [if_neg (by omega), ht]
    · simp only [callPixel, toInt_nonneg x0 (bound hw x1), toInt_nonneg y0 (bound hh y1), ht]
    · unfold at2; rw [if_neg (by omega), ht]
    · unfold toLinear at hl; omega
  · intro x y x0 y0 x1 y1 hn
    simp only [atPixel, toInt_nonneg x0 x1, toInt_nonneg y0 y1]
    apply if_pos
    by_contra hc
    obtain ⟨c1, c2⟩ := not_or.mp hc
    apply hn
    refine ⟨x0, ?_, y0, ?_⟩
    · have := Int.floor_lt.mp (not_le.mp c1); exact_mod_cast this
    · have := Int.floor_lt.mp (not_le.mp c2); exact_mod_cast this

/-- C17: points up to one pixel to the left of or above the picture are taken for points of its first column or row. -/
theorem C17_pixel_outside (w h : Nat) (hw : 0 < w) (hh : 0 < h) (x y : ℚ) (x0 : -1 < x) (x1 : x ≤ 0) (y0 : -1 < y)
    (y1 : y ≤ 0) : atPixel w h (.fin x) (.fin y) = .elem 0 := by
  simp only [atPixel, toInt_above_neg_one x0 x1, toInt_above_neg_one y0 y1]
  rw [if_neg (by omega)]
  unfold touch toLinear
  have : 0 < w * h := Nat.mul_pos hw hh
  rw [if_pos (by constructor <;> simp; omega)]
  simp

/-- C17: a coordinate that is no number, infinite or beyond what an `int` holds is not refused: its conversion is undefined. -/
theorem C17_pixel_undefined (w h : Nat) (y : Coord) :
    atPixel w h .nan y = .ub ∧ (∀ b, atPixel w h (.inf b) y = .ub) ∧ ∀ q : ℚ, 2 ^ 31 ≤ q → atPixel w h (.fin q) y = .ub := by
  refine ⟨rfl, fun _ => rfl, fun q hq => ?_⟩
  have h0 : (0 : ℚ) ≤ q := le_trans (by norm_num) hq
  have h2 : (2 ^ 31 : ℤ) ≤ ⌊q⌋ := Int.le_floor.mpr (by push_cast; exact hq)
  have : (Coord.fin q).toInt = none := by
    simp only [Coord.toInt, trunc_nonneg h0]
    rw [if_neg (by omega)]
  simp only [atPixel, this]

theorem C17_pixel_violated (w h : Nat) : ¬ C17_pixel_full w h := by
  intro hf
  have := hf.2.2.1 .nan
  rw [(C17_pixel_undefined w h .nan).1] at this
  cases this

/-- also without special values: no picture refuses the point half a pixel to the left of its first pixel -/
theorem C17_pixel_violated_left (w h : Nat) (hw : 0 < w) (hh : 0 < h) :
    ¬ ∀ x y : ℚ, ¬ Inside w h x y → atPixel w h (.fin x) (.fin y) = .throw := by
  intro hf
  have := hf (-1 / 2) 0 (by unfold Inside; norm_num)
  rw [C17_pixel_outside w h hw hh _ _ (by norm_num) (by norm_num) (by norm_num) (by norm_num)] at this
  cases this

example : Inside 4 3 (7 / 2) (5 / 2) ∧ ¬ Inside 4 3 4 0 := by unfold Inside; norm_num

example : atPixel 4 3 (.fin (7 / 2)) (.fin (5 / 2)) = .elem 11 ∧ atPixel 4 3 (.fin 4) (.fin 0) = .throw := by
  have a := (C17_pixel_partial 4 3 (by norm_num) (by norm_num)).1 (7 / 2) (5 / 2) (by unfold Inside; norm_num)
  have b := (C17_pixel_partial 4 3 (by norm_num) (by norm_num)).2 4 0 (by norm_num) (by norm_num) (by norm_num) (by norm_num)
    (by unfold Inside; norm_num)
  refine ⟨a.1.trans ?_, b⟩
  have e1 : ⌊(7 / 2 : ℚ)⌋ = 3 := by norm_num
  have e2 : ⌊(5 / 2 : ℚ)⌋ = 2 := by norm_num
  rw [e1, e2]; rfl

/-- **C17, the conversion of a coordinate.** It is defined exactly for the numbers strictly between `-2^31 - 1` and `2^31`, and
gives the number without its fraction. -/
theorem C17_pixel_conversion (q : ℚ) (i : ℤ) : (Coord.fin q).toInt = some i ↔
    (-(2 ^ 31) - 1 < q ∧ q < 2 ^ 31) ∧ (0 ≤ q → (i : ℚ) ≤ q ∧ q < i + 1) ∧ (q < 0 → (i : ℚ) - 1 < q ∧ q ≤ i) := by
  unfold Coord.toInt trunc
  by_cases h : 0 ≤ q
  · simp only [h, if_true, not_lt.2 h, false_imp_iff, and_true, true_imp_iff]
    have hf : (0 : ℤ) ≤ ⌊q⌋ := Int.floor_nonneg.mpr h
    have hu : ⌊q⌋ < 2 ^ 31 ↔ q < 2 ^ 31 := by rw [Int.floor_lt]; push_cast; rfl
    rw [← Int.floor_eq_iff]
    constructor
    · intro hi
      split at hi
      · next hc => exact ⟨⟨by linarith, hu.1 hc.2⟩, by simpa using hi⟩
      · cases hi
    · rintro ⟨⟨_, h2⟩, rfl⟩
      rw [if_pos ⟨by omega, hu.2 h2⟩]
  · have hn : q < 0 := not_le.1 h
    simp only [h, if_false, hn, false_imp_iff, true_and, true_imp_iff]
    have hf : ⌈q⌉ ≤ (0 : ℤ) := Int.ceil_le.2 (by simpa using hn.le)
    have hu : -(2 ^ 31) ≤ ⌈q⌉ ↔ -(2 ^ 31) - 1 < q := by
      rw [← Int.sub_one_lt_iff, Int.lt_ceil]; norm_num
    rw [← Int.ceil_eq_iff]
    constructor
    · intro hi
      split at hi
      · next hc => exact ⟨⟨hu.1 hc.1, by linarith⟩, by simpa using hi⟩
      · cases hi
    · rintro ⟨⟨h1, _⟩, rfl⟩
      rw [if_pos ⟨hu.2 h1, by omega⟩]

example : (Coord.fin (-(2 ^ 31) - 1 / 2)).toInt = some (-(2 ^ 31)) :=
  (C17_pixel_conversion _ _).2 ⟨by norm_num, by norm_num, by norm_num⟩

end Huira.Image
