import Verif.ImageIO.ColorSpace
import Mathlib.Tactic.Linarith
import Mathlib.Tactic.NormNum
import Mathlib.Tactic.Positivity
import Mathlib.Tactic.FieldSimp
/-! # C28 (sRGB), C29 (format detection) -/
set_option linter.unusedSimpArgs false
namespace Huira.ImageIO

/-- C28 in full. -/
def C28_full : Prop :=
  StrictMono srgbToLinear ∧ StrictMono linearToSrgb ∧ srgbToLinear 0 = 0 ∧ srgbToLinear 1 = 1 ∧ linearToSrgb 0 = 0 ∧
  linearToSrgb 1 = 1 ∧ (∀ l, 0 ≤ l → srgbToLinear (linearToSrgb l) = l) ∧ (∀ s, 0 ≤ s → linearToSrgb (srgbToLinear s) = s)

/-- Value of the power branch at the threshold, from below: `((0.04045+0.055)/1.055)^2.4` exceeds the linear branch. -/
theorem pow_threshold : (0.04045 : ℝ) / 12.92 < ((0.04045 + 0.055) / 1.055) ^ (2.4 : ℝ) := by
  have h : ((0.04045 : ℝ) / 12.92) ^ (5 : ℕ) < ((((0.04045 + 0.055) / 1.055 : ℝ)) ^ (2.4 : ℝ)) ^ (5 : ℕ) := by
    rw [← Real.rpow_natCast (((0.04045 + 0.055) / 1.055 : ℝ) ^ (2.4 : ℝ)), ← Real.rpow_mul (by norm_num)]
    have e : (2.4 : ℝ) * ((5 : ℕ) : ℝ) = ((12 : ℕ) : ℝ) := by norm_num
    rw [e, Real.rpow_natCast]
    norm_num
  exact lt_of_pow_lt_pow_left₀ 5 (by positivity) h

/-- **C28 (partial).** Decoding is strictly increasing on the whole line. -/
theorem C28_decode_strictMono_partial : StrictMono srgbToLinear := by
  intro a b hab
  unfold srgbToLinear
  by_cases hb : b ≤ 0.04045
  · rw [if_pos hb, if_pos (by linarith)]
    exact div_lt_div_of_pos_right hab (by norm_num)
  · rw [if_neg hb]
    push Not at hb
    have hmono : ∀ c d : ℝ, -0.055 ≤ c → c < d → ((c + 0.055) / 1.055) ^ (2.4 : ℝ) < ((d + 0.055) / 1.055) ^ (2.4 : ℝ) := by
      intro c d hc hcd
      apply Real.rpow_lt_rpow
      · apply div_nonneg <;> linarith
      · exact div_lt_div_of_pos_right (by linarith) (by norm_num)
      · norm_num
    by_cases ha : a ≤ 0.04045
    · rw [if_pos ha]
      have h1 : a / 12.92 ≤ 0.04045 / 12.92 := div_le_div_of_nonneg_right ha (by norm_num)
      have h2 := pow_threshold
      have h3 := hmono 0.04045 b (by norm_num) hb
      linarith
    · rw [if_neg ha]
      push Not at ha
      exact hmono a b (by linarith) hab

/-- **C28 (partial).** End points of decoding. -/
theorem C28_decode_ends_partial : srgbToLinear 0 = 0 ∧ srgbToLinear 1 = 1 := by
  constructor
  · unfold srgbToLinear; rw [if_pos (by norm_num)]; norm_num
  · unfold srgbToLinear; rw [if_neg (by norm_num), show ((1 : ℝ) + 0.055) / 1.055 = 1 by norm_num, Real.one_rpow]

/-- **C28 (partial).** End points of encoding. -/
theorem C28_encode_ends_partial : linearToSrgb 0 = 0 ∧ linearToSrgb 1 = 1 := by
  constructor
  · unfold linearToSrgb; rw [if_pos (by norm_num)]; norm_num
  · unfold linearToSrgb; rw [if_neg (by norm_num), Real.one_rpow]; norm_num

/-- Comparing `l^(1/2.4)` with a number by comparing `l^5` with its twelfth power. -/
theorem root_lt (l c : ℝ) (hl : 0 ≤ l) (hc : 0 ≤ c) (h : l ^ (5 : ℕ) < c ^ (12 : ℕ)) : l ^ (1 / 2.4 : ℝ) < c := by
  have e : (l ^ (1 / 2.4 : ℝ)) ^ (12 : ℕ) = l ^ (5 : ℕ) := by
    rw [← Real.rpow_natCast (l ^ (1 / 2.4 : ℝ)), ← Real.rpow_mul hl, ← Real.rpow_natCast l]
    norm_num
  exact lt_of_pow_lt_pow_left₀ 12 hc (by rw [e]; exact h)
theorem lt_root (l c : ℝ) (hl : 0 ≤ l) (h : c ^ (12 : ℕ) < l ^ (5 : ℕ)) : c < l ^ (1 / 2.4 : ℝ) := by
  have e : (l ^ (1 / 2.4 : ℝ)) ^ (12 : ℕ) = l ^ (5 : ℕ) := by
    rw [← Real.rpow_natCast (l ^ (1 / 2.4 : ℝ)), ← Real.rpow_mul hl, ← Real.rpow_natCast l]
    norm_num
  exact lt_of_pow_lt_pow_left₀ 12 (Real.rpow_nonneg hl _) (by rw [e]; exact h)

/-- **C28 (violated).** Encoding is not increasing at its threshold: the power branch starts below the end of the
linear branch. -/
theorem C28_encode_drops : (0.0031308 : ℝ) < 0.0031308001 ∧ linearToSrgb 0.0031308001 < linearToSrgb 0.0031308 := by
  refine ⟨by norm_num, ?_⟩
  unfold linearToSrgb
  rw [if_pos (le_refl _), if_neg (by norm_num)]
  have := root_lt 0.0031308001 (0.09544992 / 1.055) (by norm_num) (by norm_num) (by norm_num)
  have h2 : (1.055 : ℝ) * 0.0031308001 ^ (1 / 2.4 : ℝ) < 0.09544992 := by
    calc (1.055 : ℝ) * 0.0031308001 ^ (1 / 2.4 : ℝ) < 1.055 * (0.09544992 / 1.055) :=
          mul_lt_mul_of_pos_left this (by norm_num)
      _ = 0.09544992 := by norm_num
  have h3 : (0.0031308 : ℝ) * 12.92 = 0.040449936 := by norm_num
  rw [h3]
  linarith

theorem C28_violated : ¬ C28_full := by
  rintro ⟨_, h, _⟩
  exact lt_asymm (h C28_encode_drops.1) C28_encode_drops.2

/-- Encoding on the power branch is strictly increasing. -/
theorem enc_pow_mono (a b : ℝ) (ha : 0 ≤ a) (hab : a < b) :
    1.055 * a ^ (1 / 2.4 : ℝ) - 0.055 < 1.055 * b ^ (1 / 2.4 : ℝ) - 0.055 := by
  have := Real.rpow_lt_rpow ha hab (show (0 : ℝ) < 1 / 2.4 by norm_num)
  linarith

/-- Encoding of 0.0031309 already exceeds the decoder's threshold. -/
theorem enc_above : (0.04045 : ℝ) < 1.055 * (0.0031309 : ℝ) ^ (1 / 2.4 : ℝ) - 0.055 := by
  have := lt_root 0.0031309 (0.09545 / 1.055) (by norm_num) (by norm_num)
  have h2 : 1.055 * (0.09545 / 1.055 : ℝ) < 1.055 * 0.0031309 ^ (1 / 2.4 : ℝ) := mul_lt_mul_of_pos_left this (by norm_num)
  have h3 : 1.055 * (0.09545 / 1.055 : ℝ) = 0.09545 := by norm_num
  linarith

/-- **C28 (partial).** Encoding is strictly increasing outside the interval (0.0031308, 0.0031309). -/
theorem C28_encode_strictMono_partial : StrictMonoOn linearToSrgb {l | l ≤ 0.0031308 ∨ 0.0031309 ≤ l} := by
  intro a ha b hb hab
  unfold linearToSrgb
  by_cases hb' : b ≤ 0.0031308
  · rw [if_pos hb', if_pos (by linarith)]; linarith
  · rw [if_neg hb']
    have hb2 : 0.0031309 ≤ b := by
      rcases hb with h | h
      · exact absurd h hb'
      · exact h
    by_cases ha' : a ≤ 0.0031308
    · rw [if_pos ha']
      have h1 : (1.055 : ℝ) * 0.0031309 ^ (1 / 2.4 : ℝ) - 0.055 ≤ 1.055 * b ^ (1 / 2.4 : ℝ) - 0.055 := by
        have := Real.rpow_le_rpow (by norm_num) hb2 (show (0 : ℝ) ≤ 1 / 2.4 by norm_num)
        linarith
      have h2 := enc_above
      have h3 : a * 12.92 ≤ 0.0031308 * 12.92 := by linarith
      norm_num at h3 ⊢
      norm_num at h1 h2
      linarith
    · rw [if_neg ha']
      push Not at ha'
      exact enc_pow_mono a b (by linarith) hab

/-- **C28 (partial).** ... and strictly increasing on each branch. -/
theorem C28_encode_branches_partial : StrictMonoOn linearToSrgb (Set.Iic 0.0031308) ∧
    StrictMonoOn linearToSrgb (Set.Ioi 0.0031308) := by
  constructor
  · intro a ha b hb hab
    have ha' : a ≤ 0.0031308 := ha
    have hb' : b ≤ 0.0031308 := hb
    unfold linearToSrgb
    rw [if_pos hb', if_pos ha']; linarith
  · intro a ha b hb hab
    have ha' : (0.0031308 : ℝ) < a := ha
    have hb' : (0.0031308 : ℝ) < b := hb
    unfold linearToSrgb
    rw [if_neg (not_le.2 ha'), if_neg (not_le.2 hb')]
    exact enc_pow_mono a b (by linarith) hab

theorem dec_pow_enc (l : ℝ) (hl : 0 ≤ l) : ((1.055 * l ^ (1 / 2.4 : ℝ) - 0.055 + 0.055) / 1.055) ^ (2.4 : ℝ) = l := by
  have e : (1.055 * l ^ (1 / 2.4 : ℝ) - 0.055 + 0.055) / 1.055 = l ^ (1 / 2.4 : ℝ) := by
    rw [sub_add_cancel, mul_div_assoc, mul_comm, div_mul_cancel₀ _ (by norm_num)]
  rw [e, ← Real.rpow_mul hl]
  norm_num

/-- **C28 (partial).** Decoding after encoding is the identity for every value outside (0.0031308, 0.0031309)
(negative values included). -/
theorem C28_decode_encode_partial (l : ℝ) (h : l ≤ 0.0031308 ∨ 0.0031309 ≤ l) : srgbToLinear (linearToSrgb l) = l := by
  unfold linearToSrgb
  by_cases hl : l ≤ 0.0031308
  · rw [if_pos hl]
    unfold srgbToLinear
    rw [if_pos (by norm_num at hl ⊢; linarith)]
    field_simp
  · rw [if_neg hl]
    have h2 : 0.0031309 ≤ l := h.resolve_left hl
    have h3 := Real.rpow_le_rpow (by norm_num) h2 (show (0 : ℝ) ≤ 1 / 2.4 by norm_num)
    have h4 := enc_above
    unfold srgbToLinear
    rw [if_neg (by push Not; linarith)]
    exact dec_pow_enc l (by linarith)

/-- **C28 (partial).** Inside that interval the round trip is off by less than 2e-8. -/
theorem C28_gap_error_partial (l : ℝ) (h0 : 0.0031308 < l) (h1 : l < 0.0031309) :
    |srgbToLinear (linearToSrgb l) - l| ≤ 2e-8 := by
  unfold linearToSrgb
  rw [if_neg (not_le.2 h0)]
  obtain ⟨s, hs⟩ : ∃ s, s = 1.055 * l ^ (1 / 2.4 : ℝ) - 0.055 := ⟨_, rfl⟩
  rw [← hs]
  unfold srgbToLinear
  by_cases hc : s ≤ 0.04045
  · rw [if_pos hc]
    have hlow : 0.0404499 < s := by
      have := lt_root l (0.0954499 / 1.055) (by linarith) (by
        calc ((0.0954499 : ℝ) / 1.055) ^ 12 < 0.0031308 ^ 5 := by norm_num
          _ < l ^ 5 := by gcongr)
      have h2 : 1.055 * (0.0954499 / 1.055 : ℝ) < 1.055 * l ^ (1 / 2.4 : ℝ) := mul_lt_mul_of_pos_left this (by norm_num)
      have h3 : 1.055 * (0.0954499 / 1.055 : ℝ) = 0.0954499 := by norm_num
      rw [hs]; linarith
    have hup : l < 0.00313081 := by
      by_contra hcon
      push Not at hcon
      have := lt_root l (0.09545 / 1.055) (by linarith) (by
        calc ((0.09545 : ℝ) / 1.055) ^ 12 < 0.00313081 ^ 5 := by norm_num
          _ ≤ l ^ 5 := by gcongr)
      have h2 : 1.055 * (0.09545 / 1.055 : ℝ) < 1.055 * l ^ (1 / 2.4 : ℝ) := mul_lt_mul_of_pos_left this (by norm_num)
      have h3 : 1.055 * (0.09545 / 1.055 : ℝ) = 0.09545 := by norm_num
      rw [hs] at hc; linarith
    rw [abs_le]
    constructor
    · have : 0.0404499 / 12.92 < s / 12.92 := div_lt_div_of_pos_right hlow (by norm_num)
      norm_num at this hup h0 ⊢
      linarith
    · have : s / 12.92 ≤ 0.04045 / 12.92 := div_le_div_of_nonneg_right hc (by norm_num)
      norm_num at this hup h0 ⊢
      linarith
  · rw [if_neg hc, hs, dec_pow_enc l (by linarith)]
    norm_num

/-- **C28 (partial).** Encoding after decoding is the identity for every value outside (0.040449936, 0.04045]. -/
theorem C28_encode_decode_partial (s : ℝ) (h : s ≤ 0.040449936 ∨ 0.04045 < s) : linearToSrgb (srgbToLinear s) = s := by
  unfold srgbToLinear
  by_cases hs : s ≤ 0.04045
  · rw [if_pos hs]
    have h2 : s ≤ 0.040449936 := by
      rcases h with h | h
      · exact h
      · exact absurd hs (not_le.2 h)
    unfold linearToSrgb
    rw [if_pos (by rw [div_le_iff₀ (by norm_num)]; norm_num at h2 ⊢; linarith)]
    field_simp
  · rw [if_neg hs]
    push Not at hs
    have h1 : ((0.04045 + 0.055 : ℝ) / 1.055) ^ (2.4 : ℝ) < ((s + 0.055) / 1.055) ^ (2.4 : ℝ) := by
      apply Real.rpow_lt_rpow (by norm_num) _ (by norm_num)
      exact div_lt_div_of_pos_right (by linarith) (by norm_num)
    have h2 := pow_threshold
    unfold linearToSrgb
    rw [if_neg (by
      push Not
      have : (0.0031308 : ℝ) < 0.04045 / 12.92 := by norm_num
      linarith)]
    rw [← Real.rpow_mul (by apply div_nonneg <;> linarith)]
    norm_num
    field_simp
    ring

/-- Non-vacuity: a mid grey goes through both branches' theorems. -/
example : srgbToLinear (linearToSrgb 0.18) = 0.18 := C28_decode_encode_partial 0.18 (Or.inr (by norm_num))

/-! ## C29 -/

/-- Path of a file `stem` with extension `ext` (without dot) in a directory. -/
def filePath (dir stem ext : List Char) : List Char := dir ++ '/' :: (stem ++ '.' :: ext)

theorem takeWhile_append_stop {α : Type} (p : α → Bool) (l m : List α) (a : α) (hl : ∀ x ∈ l, p x = true)
    (ha : p a = false) : (l ++ a :: m).takeWhile p = l := by
  induction l with
  | nil => simp [ha]
  | cons x l ih =>
    simp [hl x (List.mem_cons_self ..), ih (fun y hy => hl y (List.mem_cons_of_mem _ hy))]

/-- The extension of `dir/stem.ext` is `.ext`, for any directory and any non-empty stem (dots allowed). -/
theorem extension_filePath (dir stem ext : List Char) (hs : stem ≠ []) (hs1 : '/' ∉ stem) (he1 : '/' ∉ ext)
    (he2 : '.' ∉ ext) (hne : ¬ (stem = ['.'] ∧ ext = [])) : extension (filePath dir stem ext) = '.' :: ext := by
  unfold extension filePath
  have hname : ((dir ++ '/' :: (stem ++ '.' :: ext)).reverse.takeWhile (· ≠ '/')).reverse = stem ++ '.' :: ext := by
    have e : (dir ++ '/' :: (stem ++ '.' :: ext)).reverse = (stem ++ '.' :: ext).reverse ++ '/' :: dir.reverse := by simp
    rw [e, takeWhile_append_stop]
    · rw [List.reverse_reverse]
    · intro x hx
      simp only [List.mem_reverse, List.mem_append, List.mem_cons] at hx
      simp only [ne_eq, decide_not, Bool.not_eq_true', decide_eq_false_iff_not]
      rcases hx with hx | rfl | hx
      · exact fun h => hs1 (h ▸ hx)
      · decide
      · exact fun h => he1 (h ▸ hx)
    · simp
  rw [hname]
  have hsuf : ((stem ++ '.' :: ext).reverse.takeWhile (· ≠ '.')).reverse = ext := by
    have e : (stem ++ '.' :: ext).reverse = ext.reverse ++ '.' :: stem.reverse := by simp
    rw [e, takeWhile_append_stop]
    · rw [List.reverse_reverse]
    · intro x hx
      simp only [ne_eq, decide_not, Bool.not_eq_true', decide_eq_false_iff_not]
      exact fun h => he2 (h ▸ List.mem_reverse.1 hx)
    · simp
  have hlen : 0 < stem.length := List.length_pos_iff.2 hs
  have hnd : stem ++ '.' :: ext ≠ ['.', '.'] := by
    intro h
    have hl := congrArg List.length h
    simp at hl
    have h1 : stem.length = 1 ∧ ext = [] := ⟨by omega, List.eq_nil_of_length_eq_zero (by omega)⟩
    obtain ⟨c, hc⟩ := List.length_eq_one_iff.1 h1.1
    rw [hc, h1.2] at h
    simp at h
    exact hne ⟨by rw [hc, h], h1.2⟩
  simp only
  rw [if_neg hnd, hsuf, if_pos (by simp; omega)]

/-- The documented extensions of each format. -/
def spellings : Format → List (List Char)
  | .bmp => ["bmp".toList, "BMP".toList]
  | .fits => ["fits".toList, "FITS".toList]
  | .hdr => ["hdr".toList, "HDR".toList]
  | .jpeg => ["jpg".toList, "jpeg".toList, "JPG".toList, "JPEG".toList]
  | .png => ["png".toList, "PNG".toList]
  | .tga => ["tga".toList, "TGA".toList]
  | .tiff => ["tiff".toList, "TIFF".toList, "tif".toList, "TIF".toList]
  | .unknown => []

/-- **C29.** Exactly the documented spellings are recognised, each as its format; nothing else is. -/
theorem C29_exact (dir stem ext : List Char) (hs : stem ≠ []) (hs1 : '/' ∉ stem) (he1 : '/' ∉ ext) (he2 : '.' ∉ ext)
    (hne : ¬ (stem = ['.'] ∧ ext = [])) (f : Format) (hf : f ≠ .unknown) :
    detect (filePath dir stem ext) = f ↔ ext ∈ spellings f := by
  unfold detect
  rw [extension_filePath dir stem ext hs hs1 he1 he2 hne]
  have hc : ∀ s : List Char, ('.' :: ext = '.' :: s) ↔ ext = s := fun s => by simp
  unfold detectExt
  constructor
  · intro h
    split at h
    · subst h; rename_i h1
      rcases h1 with h1 | h1 <;> (have h2 := congrArg List.tail h1; simp only [List.tail_cons] at h2; rw [h2]; decide)
    split at h
    · subst h; rename_i h1
      rcases h1 with h1 | h1 <;> (have h2 := congrArg List.tail h1; simp only [List.tail_cons] at h2; rw [h2]; decide)
    split at h
    · subst h; rename_i h1
      rcases h1 with h1 | h1 <;> (have h2 := congrArg List.tail h1; simp only [List.tail_cons] at h2; rw [h2]; decide)
    split at h
    · subst h; rename_i h1
      rcases h1 with h1 | h1 | h1 | h1 <;> (have h2 := congrArg List.tail h1; simp only [List.tail_cons] at h2; rw [h2]; decide)
    split at h
    · subst h; rename_i h1
      rcases h1 with h1 | h1 <;> (have h2 := congrArg List.tail h1; simp only [List.tail_cons] at h2; rw [h2]; decide)
    split at h
    · subst h; rename_i h1
      rcases h1 with h1 | h1 <;> (have h2 := congrArg List.tail h1; simp only [List.tail_cons] at h2; rw [h2]; decide)
    split at h
    · subst h; rename_i h1
      rcases h1 with h1 | h1 | h1 | h1 <;> (have h2 := congrArg List.tail h1; simp only [List.tail_cons] at h2; rw [h2]; decide)
    · exact absurd h.symm hf
  · intro h
    cases f <;> simp only [spellings, List.mem_cons, List.not_mem_nil, or_false] at h <;>
      first
        | (rcases h with rfl | rfl | rfl | rfl <;> decide)
        | (rcases h with rfl | rfl <;> decide)
        | exact absurd h (by simp)

/-- **C29.** The directory and the stem do not matter. -/
theorem C29_extension_only (dir dir' stem stem' ext : List Char) (hs : stem ≠ []) (hs' : stem' ≠ []) (hs1 : '/' ∉ stem)
    (hs1' : '/' ∉ stem') (he1 : '/' ∉ ext) (he2 : '.' ∉ ext) (hne : ext ≠ []) :
    detect (filePath dir stem ext) = detect (filePath dir' stem' ext) := by
  unfold detect
  rw [extension_filePath dir stem ext hs hs1 he1 he2 (fun h => hne h.2),
    extension_filePath dir' stem' ext hs' hs1' he1 he2 (fun h => hne h.2)]

/-- **C29.** A file whose extension is not listed is unknown and reading it throws; so does reading a FITS file
through `read_image`. -/
theorem C29_unknown_throws (dir stem ext : List Char) (hs : stem ≠ []) (hs1 : '/' ∉ stem) (he1 : '/' ∉ ext)
    (he2 : '.' ∉ ext) (hne : ¬ (stem = ['.'] ∧ ext = []))
    (h : ∀ f, f ≠ .fits → ext ∉ spellings f) : dispatch (detect (filePath dir stem ext)) = none := by
  cases hd : detect (filePath dir stem ext) with
  | unknown => rfl
  | fits => rfl
  | bmp => exact absurd ((C29_exact dir stem ext hs hs1 he1 he2 hne .bmp (by decide)).1 hd) (h _ (by decide))
  | hdr => exact absurd ((C29_exact dir stem ext hs hs1 he1 he2 hne .hdr (by decide)).1 hd) (h _ (by decide))
  | jpeg => exact absurd ((C29_exact dir stem ext hs hs1 he1 he2 hne .jpeg (by decide)).1 hd) (h _ (by decide))
  | png => exact absurd ((C29_exact dir stem ext hs hs1 he1 he2 hne .png (by decide)).1 hd) (h _ (by decide))
  | tga => exact absurd ((C29_exact dir stem ext hs hs1 he1 he2 hne .tga (by decide)).1 hd) (h _ (by decide))
  | tiff => exact absurd ((C29_exact dir stem ext hs hs1 he1 he2 hne .tiff (by decide)).1 hd) (h _ (by decide))

example : detect "/data.v2/star.map.png".toList = .png := by decide
example : detect "/data/Photo.Png".toList = .unknown := by decide
example : detect "/data/.png".toList = .unknown := by decide

end Huira.ImageIO
