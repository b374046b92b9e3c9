import Verif.ImageIO.ColorSpaceProps

/-!
# Converting pictures between linear and sRGB colours (C169)

Models `linear_to_srgb` and `srgb_to_linear` of picture bundles (`include/huira/images/io/color_space.hpp` 30-89) and of bare images in
Python (`bindings/python/include/huira/images/image_py.ipp` 341-418), with `ImageBundle` (`include/huira/images/image.hpp` 157-187) and
the depth of the sensor an `Image` remembers (image.hpp 125-126, 142).

Exact arithmetic, as in C28. Pixels have any number of channels: 3 for `RGB`, 1 for `float`. Sizes are not negative and do not overflow.
-/
set_option linter.unusedSimpArgs false
namespace Huira.ImageIO.Bundle
open Huira.ImageIO

/-- `ColorSpaceHint` (image.hpp 155) -/
inductive Space where
  | linear | srgb | gamma | unknown
deriving DecidableEq

/-- `Image<PixelT>` (image.hpp 138-142): `data_`, `resolution_`, `sensor_bit_depth_`. -/
structure Image (P : Type) where
  width : Nat
  height : Nat
  data : List P
  sensorBits : Nat

/-- `ImageBundle<PixelT>` (image.hpp 157-165) -/
structure Bundle (P : Type) where
  image : Image P
  alpha : Image ℝ
  space : Space
  gamma : ℝ
  bitDepth : Nat

/-- A colour of `k` channels. -/
abbrev Colour (k : Nat) := Fin k → ℝ

/-- `Image(width, height)` (image.ipp 56-60): pixels of zeros, no depth of a sensor. -/
def Image.blank {P : Type} (zero : P) (w h : Nat) : Image P := ⟨w, h, List.replicate (w * h) zero, 0⟩

/-- `Image{}` (image.hpp 60, 138-142) -/
def Image.none {P : Type} : Image P := ⟨0, 0, [], 0⟩

/-- `image(x, y)` read (image.ipp 175-190): the element `y * width + x`. -/
def Image.get? {P : Type} (im : Image P) (x y : Nat) : Option P := im.data[y * im.width + x]?

/-- One turn of the inner loop (color_space.hpp 35-39): read, convert, write. Both images have the width of the source. -/
def turn {k : Nat} (f : ℝ → ℝ) (src : Image (Colour k)) (y : Nat) (out : List (Colour k)) (x : Nat) : List (Colour k) :=
  match src.get? x y with
  | some p => out.set (y * src.width + x) (fun c => f (p c))
  | Option.none => out

/-- The loops over all pixels (color_space.hpp 33-41) -/
def convertImage {k : Nat} (f : ℝ → ℝ) (src : Image (Colour k)) : Image (Colour k) :=
  let blank := Image.blank (fun _ => (0 : ℝ)) src.width src.height
  { blank with data := (List.range src.height).foldl (fun out y => (List.range src.width).foldl (turn f src y) out) blank.data }

/-- `ImageBundle(Image, Image)` (image.hpp 174-178): the defaults for everything else. -/
def Bundle.ofImages {P : Type} (im : Image P) (alpha : Image ℝ) : Bundle P := ⟨im, alpha, .srgb, 1, 8⟩

/-- `linear_to_srgb(const ImageBundle&)` (color_space.hpp 30-58) -/
noncomputable def toSrgb {k : Nat} (b : Bundle (Colour k)) : Bundle (Colour k) :=
  { Bundle.ofImages (convertImage linearToSrgb b.image) b.alpha with space := .srgb }

/-- `srgb_to_linear(const ImageBundle&)` (color_space.hpp 60-88) -/
noncomputable def toLinear {k : Nat} (b : Bundle (Colour k)) : Bundle (Colour k) :=
  { Bundle.ofImages (convertImage srgbToLinear b.image) b.alpha with space := .linear }

/-- Python's `linear_to_srgb(image)` (image_py.ipp 342-377): `ImageBundle(Image)`, no alpha. -/
noncomputable def pyToSrgb {k : Nat} (im : Image (Colour k)) : Bundle (Colour k) :=
  { Bundle.ofImages (convertImage linearToSrgb im) Image.none with space := .srgb }

/-- Python's `srgb_to_linear(image)` (image_py.ipp 380-415) -/
noncomputable def pyToLinear {k : Nat} (im : Image (Colour k)) : Bundle (Colour k) :=
  { Bundle.ofImages (convertImage srgbToLinear im) Image.none with space := .linear }

/-! ## Specification -/

/-- An image has a pixel for each place. -/
def Image.Whole {P : Type} (im : Image P) : Prop := im.data.length = im.width * im.height

/-- `r` is the picture `b` with every channel of every pixel changed by `f`, and the colours' name. -/
def Converted {k : Nat} (f : ℝ → ℝ) (s : Space) (b r : Bundle (Colour k)) : Prop :=
  r.image.Whole ∧ r.image.width = b.image.width ∧ r.image.height = b.image.height ∧ r.alpha = b.alpha ∧ r.space = s ∧
  ∀ x y, x < b.image.width → y < b.image.height →
    ∃ p, b.image.get? x y = some p ∧ r.image.get? x y = some fun c => f (p c)

/-- All else is as it was: the exponent, the bits of the file and those of the sensor. -/
def Kept {k : Nat} (b r : Bundle (Colour k)) : Prop :=
  r.gamma = b.gamma ∧ r.bitDepth = b.bitDepth ∧ r.image.sensorBits = b.image.sensorBits

/-- **C169 in full**: both conversions convert the colours and nothing else. -/
def C169_full : Prop := ∀ (k : Nat) (b : Bundle (Colour k)), b.image.Whole →
  (Converted linearToSrgb .srgb b (toSrgb b) ∧ Kept b (toSrgb b)) ∧ (Converted srgbToLinear .linear b (toLinear b) ∧ Kept b (toLinear b))

/-! ## The loops -/

variable {k : Nat}

theorem turn_length (f : ℝ → ℝ) (src : Image (Colour k)) (y : Nat) (out : List (Colour k)) (x : Nat) :
    (turn f src y out x).length = out.length := by
  unfold turn; split <;> simp

theorem row_length (f : ℝ → ℝ) (src : Image (Colour k)) (y n : Nat) (out : List (Colour k)) :
    ((List.range n).foldl (turn f src y) out).length = out.length := by
  induction n with
  | zero => rfl
  | succ n ih => rw [List.range_succ, List.foldl_append]; simp [turn_length, ih]

/-- One row: the pixels before `n` are converted, the others untouched. -/
theorem row_at (f : ℝ → ℝ) (src : Image (Colour k)) (hw : src.Whole) (y : Nat) (hy : y < src.height) (n : Nat) (hn : n ≤ src.width)
    (out : List (Colour k)) (ho : out.length = src.data.length) (i : Nat) :
    ((List.range n).foldl (turn f src y) out)[i]? =
      if y * src.width ≤ i ∧ i < y * src.width + n then src.data[i]?.map (fun p c => f (p c)) else out[i]? := by
  induction n with
  | zero =>
    rw [if_neg (by omega)]; rfl
  | succ n ih =>
    rw [List.range_succ, List.foldl_append]
    simp only [List.foldl_cons, List.foldl_nil]
    have hlt : y * src.width + n < src.data.length := by
      have h1 : (y + 1) * src.width ≤ src.height * src.width := Nat.mul_le_mul_right _ hy
      rw [hw, Nat.mul_comm src.width]
      rw [Nat.succ_mul] at h1
      omega
    have hg : src.get? n y = some src.data[y * src.width + n] := List.getElem?_eq_getElem hlt
    rw [show ∀ l, turn f src y l n = l.set (y * src.width + n) (fun c => f (src.data[y * src.width + n] c)) from
      fun l => by unfold turn; rw [hg]]
    rw [List.getElem?_set, row_length, ho, if_pos hlt]
    by_cases hi : y * src.width + n = i
    · subst hi
      rw [if_pos rfl, if_pos (by omega), List.getElem?_eq_getElem hlt]
      rfl
    · rw [if_neg hi, ih (by omega)]
      by_cases hc : y * src.width ≤ i ∧ i < y * src.width + n
      · rw [if_pos hc, if_pos (by omega)]
      · rw [if_neg hc, if_neg (by omega)]

theorem rows_at (f : ℝ → ℝ) (src : Image (Colour k)) (hw : src.Whole) (m : Nat) (hm : m ≤ src.height) (out : List (Colour k))
    (ho : out.length = src.data.length) :
    ((List.range m).foldl (fun out y => (List.range src.width).foldl (turn f src y) out) out).length = out.length ∧
    ∀ i : Nat, ((List.range m).foldl (fun out y => (List.range src.width).foldl (turn f src y) out) out)[i]? =
      if i < m * src.width then src.data[i]?.map (fun p c => f (p c)) else out[i]? := by
  induction m with
  | zero => exact ⟨rfl, fun i => by rw [if_neg (by omega)]; rfl⟩
  | succ m ih =>
    obtain ⟨hl, hi⟩ := ih (by omega)
    simp only [List.range_succ, List.foldl_append, List.foldl_cons, List.foldl_nil]
    refine ⟨by rw [row_length, hl], fun i => ?_⟩
    rw [row_at f src hw m (by omega) _ (Nat.le_refl _) _ (by rw [hl, ho]), hi, Nat.succ_mul]
    by_cases h1 : i < m * src.width
    · rw [if_neg (by omega), if_pos h1, if_pos (by omega)]
    · by_cases h2 : i < m * src.width + src.width
      · rw [if_pos ⟨by omega, h2⟩, if_pos h2]
      · rw [if_neg (by omega), if_neg h1, if_neg h2]

/-- The loops convert every pixel. -/
theorem convert_data (f : ℝ → ℝ) (src : Image (Colour k)) (hw : src.Whole) :
    (convertImage f src).data = src.data.map fun p c => f (p c) := by
  have hb : (Image.blank (fun _ : Fin k => (0 : ℝ)) src.width src.height).data.length = src.data.length := by
    simp [Image.blank, show src.data.length = src.width * src.height from hw]
  obtain ⟨_, hi⟩ := rows_at f src hw src.height (Nat.le_refl _) _ hb
  apply List.ext_getElem?
  intro i
  simp only [convertImage]
  rw [hi i, List.getElem?_map]
  split
  · rfl
  · next h =>
    have h2 : src.data.length ≤ i := by rw [hw, Nat.mul_comm]; omega
    rw [List.getElem?_eq_none h2, List.getElem?_eq_none (by rw [hb]; exact h2)]
    rfl

theorem converted (f : ℝ → ℝ) (s : Space) (b : Bundle (Colour k)) (hw : b.image.Whole) :
    Converted f s b { Bundle.ofImages (convertImage f b.image) b.alpha with space := s } := by
  refine ⟨?_, rfl, rfl, rfl, rfl, fun x y hx hy => ?_⟩
  · simp only [Image.Whole, Bundle.ofImages, convert_data f b.image hw, List.length_map]
    exact hw
  · have hlt : y * b.image.width + x < b.image.data.length := by
      have h1 : (y + 1) * b.image.width ≤ b.image.height * b.image.width := Nat.mul_le_mul_right _ hy
      rw [hw, Nat.mul_comm b.image.width]
      rw [Nat.succ_mul] at h1
      omega
    refine ⟨b.image.data[y * b.image.width + x], List.getElem?_eq_getElem hlt, ?_⟩
    simp only [Image.get?, Bundle.ofImages, convert_data f b.image hw, List.getElem?_map]
    rw [show (convertImage f b.image).width = b.image.width from rfl, List.getElem?_eq_getElem hlt]
    rfl

/-! ## Theorems -/

/-- **C169 (partial).** Both conversions convert every channel of every pixel and keep size and alpha; Python's conversions of an
image are those of the bundle made from it. -/
theorem C169_partial (b : Bundle (Colour k)) (hw : b.image.Whole) :
    Converted linearToSrgb .srgb b (toSrgb b) ∧ Converted srgbToLinear .linear b (toLinear b) ∧
    pyToSrgb b.image = toSrgb (.ofImages b.image .none) ∧ pyToLinear b.image = toLinear (.ofImages b.image .none) :=
  ⟨converted _ _ b hw, converted _ _ b hw, rfl, rfl⟩

/-- Python's conversions of an image give pictures without transparency, named after their colours. -/
theorem C169_python_partial (im : Image (Colour k)) :
    ((pyToSrgb im).alpha.width = 0 ∧ (pyToSrgb im).alpha.height = 0 ∧ (pyToSrgb im).alpha.Whole ∧ (pyToSrgb im).space = .srgb) ∧
    ((pyToLinear im).alpha.width = 0 ∧ (pyToLinear im).alpha.height = 0 ∧ (pyToLinear im).alpha.Whole ∧
      (pyToLinear im).space = .linear) :=
  ⟨⟨rfl, rfl, rfl, rfl⟩, rfl, rfl, rfl, rfl⟩

/-- **C169, there and back (partial).** A linear picture made sRGB and then linear again has its colours again, if none is in the gap of
C28 between the two pieces of the curve; and in any case its size and alpha. -/
theorem C169_back_partial (b : Bundle (Colour k)) (hw : b.image.Whole)
    (hg : ∀ p ∈ b.image.data, ∀ c, p c ≤ 0.0031308 ∨ 0.0031309 ≤ p c) :
    (toLinear (toSrgb b)).image.data = b.image.data ∧ (toLinear (toSrgb b)).alpha = b.alpha ∧
    (toLinear (toSrgb b)).image.width = b.image.width ∧ (toLinear (toSrgb b)).image.height = b.image.height := by
  refine ⟨?_, rfl, rfl, rfl⟩
  have h1 := (C169_partial b hw).1.1
  simp only [toLinear, Bundle.ofImages]
  rw [convert_data _ _ h1]
  simp only [toSrgb, Bundle.ofImages]
  rw [convert_data _ _ hw, List.map_map]
  conv_rhs => rw [← List.map_id b.image.data]
  apply List.map_congr_left
  intro p hp
  funext c
  exact C28_decode_encode_partial _ (hg p hp c)

/-- **C169 is violated** by exactly the pictures of another depth or exponent than the default, or made by a sensor: the results
always have 8 bits, exponent 1 and no sensor. -/
theorem C169_violated (b : Bundle (Colour k)) :
    (Kept b (toSrgb b) ↔ b.gamma = 1 ∧ b.bitDepth = 8 ∧ b.image.sensorBits = 0) ∧
    (Kept b (toLinear b) ↔ b.gamma = 1 ∧ b.bitDepth = 8 ∧ b.image.sensorBits = 0) := by
  constructor <;>
    exact ⟨fun ⟨h1, h2, h3⟩ => ⟨h1.symm, h2.symm, h3.symm⟩, fun ⟨h1, h2, h3⟩ => ⟨h1.symm, h2.symm, h3.symm⟩⟩

theorem C169_violated_full : ¬ C169_full := by
  intro h
  have := ((C169_violated _).1.1 (h 3 ⟨⟨1, 1, [fun _ => 1 / 2], 12⟩, .none, .linear, 1, 16⟩ rfl).1.2).2.1
  simp at this

/-- A picture of two pixels, one dark and one bright, from a 16-bit file: its colours come back, its bits do not. -/
example : let b : Bundle (Colour 3) := ⟨⟨2, 1, [fun _ => 0, fun _ => 1 / 2], 0⟩, .none, .linear, 1, 16⟩
    b.image.Whole ∧ (toLinear (toSrgb b)).image.data = b.image.data ∧ (toSrgb b).bitDepth = 8 ∧ ¬ Kept b (toSrgb b) := by
  intro b
  refine ⟨rfl, (C169_back_partial b rfl ?_).1, rfl, fun h => ?_⟩
  · intro p hp c
    simp only [b, List.mem_cons, List.not_mem_nil, or_false] at hp
    rcases hp with rfl | rfl
    · left; norm_num
    · right; norm_num
  · exact absurd ((C169_violated b).1.1 h).2.1 (by simp [b])

end Huira.ImageIO.Bundle
