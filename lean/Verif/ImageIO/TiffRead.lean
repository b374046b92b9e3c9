import Verif.ImageIO.TiffProps
/-!
# TIFF: the readers (C105)
-/
set_option linter.unusedSimpArgs false
set_option linter.unusedVariables false
namespace Huira.ImageIO.Tiff
open Huira.Num Huira.ImageIO Huira.ImageIO.Convert
open Huira.ImageIO.Png (FV Img Bundle Hint pixelAt)

theorem allocate_ok (w h : Nat) (hw : 0 < w) (hh : 0 < h) (hs : w * h < 2147483648) : allocate w h = .ok () := by
  have h1 : w < 2147483648 := lt_of_le_of_lt (Nat.le_mul_of_pos_right _ hh) hs
  have h2 : h < 2147483648 := lt_of_le_of_lt (Nat.le_mul_of_pos_left _ hw) hs
  have e1 : s32 w = w := by unfold s32; rw [if_pos h1]
  have e2 : s32 h = h := by unfold s32; rw [if_pos h2]
  unfold allocate
  rw [if_neg (by omega), e1, e2]
  have hi : i32 ((w : Int) * h) = .ok ((w : Int) * h) := by
    unfold i32
    rw [if_pos]
    exact ⟨le_trans (by norm_num : (-2147483648 : Int) ≤ 0) (by positivity), by exact_mod_cast hs⟩
  rw [hi, Res.ok_bind, if_neg (not_lt.2 (by positivity))]

theorem pix_get {P : Type} (w h x y : Nat) (hx : x < w) (hy : y < h) (g : Nat → P) :
    ((List.range (w * h)).map g)[y * w + x]? = some (g (y * w + x)) := by
  rw [List.getElem?_map, List.getElem?_range (dst_lt w h x y hx hy)]; rfl

/-- The readers in terms of the raw data. -/
theorem readImage_ok {P : Type} {fl : ℚ → ℚ} (grey : FV → P) (colour : FV → FV → FV → P) (lib : Lib) (d : List Byte) (f : File)
    (hf : lib.openMem d = some f) (t : Data) (ht : readFile fl lib f = .ok t) (hw : 0 < t.w) (hh : 0 < t.h) (hs : t.w * t.h < 2147483648)
    (cc : Nat) (hcc : (if t.alpha.isSome then t.n - 1 else t.n) = cc) (h13 : cc = 1 ∨ cc = 3) (ra : Bool) :
    ∃ b, readImage fl grey colour lib d ra = .ok b ∧ b.image.w = t.w ∧ b.image.h = t.h ∧ b.image.data.length = t.w * t.h ∧
      (∀ x y, x < t.w → y < t.h → b.image.data[y * t.w + x]? = some (if cc = 1 then grey (t.channels (0, y * t.w + x))
        else colour (t.channels (0, y * t.w + x)) (t.channels (1, y * t.w + x)) (t.channels (2, y * t.w + x)))) ∧
      (∀ a, t.alpha = some a → ra = true → b.alpha.w = t.w ∧ b.alpha.h = t.h ∧ b.alpha.data.length = t.w * t.h ∧
        ∀ x y, x < t.w → y < t.h → b.alpha.data[y * t.w + x]? = some (t.channels (a, y * t.w + x))) ∧
      ((t.alpha = none ∨ ra = false) → b.alpha = ⟨0, 0, []⟩) ∧ b.hint = .sRGB ∧ b.gamma = 1 ∧ b.depth = 8 := by
  have hr : readRaw fl lib d = .ok t := by unfold readRaw; rw [hf]; exact ht
  have hn : ¬ (cc ≠ 1 ∧ cc ≠ 3) := by omega
  have key : readImage fl grey colour lib d ra = .ok ⟨⟨t.w, t.h, (List.range (t.w * t.h)).map fun i =>
            if cc = 1 then grey (t.channels (0, i)) else colour (t.channels (0, i)) (t.channels (1, i)) (t.channels (2, i))⟩,
          (match t.alpha with
            | some a => if ra then ⟨t.w, t.h, (List.range (t.w * t.h)).map fun i => t.channels (a, i)⟩ else ⟨0, 0, []⟩
            | none => ⟨0, 0, []⟩),
          .sRGB, 1, 8⟩ := by
    unfold readImage
    rw [hr, Res.ok_bind]
    simp only [hcc]
    rw [if_neg hn, allocate_ok _ _ hw hh hs, Res.ok_bind]
    rfl
  refine ⟨_, key, rfl, rfl, by simp, ?_, ?_, ?_, rfl, rfl, rfl⟩
  · intro x y hx hy
    exact pix_get _ _ x y hx hy _
  · intro a ha hra
    simp only [ha, hra, if_true]
    exact ⟨trivial, trivial, by simp, fun x y hx hy => pix_get _ _ x y hx hy _⟩
  · rintro (h | h)
    · simp only [h]
    · cases t.alpha <;> simp [h]

theorem cc_plain (f : File) (h : Plain f) (a : Option Nat) (ha : a = if f.extra = [] then none else some (colours f.photo)) :
    (if a.isSome then f.spp - 1 else f.spp) = colours f.photo := by
  have hs := h.spp
  rcases h.extra with e | e | e <;> rw [ha, e] <;> rw [e] at hs <;> simp at hs ⊢ <;> omega

theorem colours_cases (n : Nat) : colours n = 1 ∨ colours n = 3 := by unfold colours; split <;> simp

/-- **C105 (partial).**  A grey or RGB TIFF file of 8, 16 or 32 unsigned bits or `float` samples, with or without an alpha
channel, in strips or tiles, interleaved or in planes, is read pixel by pixel: colours are the stored fraction of full
range (inverted for MinIsWhite), grey becomes three equal components, alpha is the extra sample, not inverted, and is
delivered exactly when asked for.  (Files whose sizes fit `int` and whose strips and tiles can all be decoded.) -/
theorem C105_read_partial {fl : ℚ → ℚ} (hfl : IsRounding fl) (lib : Lib) (d : List Byte) (f : File) (hf : lib.openMem d = some f)
    (h : Plain f) (hft : Fits f) (hok : Readable f) (ra : Bool) :
    ∃ b, readRGB fl lib d ra = .ok b ∧ b.image.w = f.w ∧ b.image.h = f.h ∧ b.image.data.length = f.w * f.h ∧
      (∀ x y, x < f.w → y < f.h → b.image.data[y * f.w + x]? = some (if f.photo = 2
        then (shown fl lib f x y 0, shown fl lib f x y 1, shown fl lib f x y 2)
        else (shown fl lib f x y 0, shown fl lib f x y 0, shown fl lib f x y 0))) ∧
      (f.extra ≠ [] → ra = true → b.alpha.w = f.w ∧ b.alpha.h = f.h ∧ b.alpha.data.length = f.w * f.h ∧
        ∀ x y, x < f.w → y < f.h → b.alpha.data[y * f.w + x]? = some (value fl lib f (f.sample x y (colours f.photo)))) ∧
      ((f.extra = [] ∨ ra = false) → b.alpha = ⟨0, 0, []⟩) ∧ b.hint = .sRGB ∧ b.gamma = 1 ∧ b.depth = 8 := by
  obtain ⟨t, h1, h2, h3, h4, h5, h6, h7⟩ := readFile_ok hfl lib f h hft hok
  obtain ⟨b, k1, k2, k3, k4, k5, k6, k7, k8⟩ := readImage_ok (fl := fl) (fun v => (v, v, v)) (fun r g b => (r, g, b)) lib d f hf t h1
    (by rw [h2]; exact h.w_pos) (by rw [h3]; exact h.h_pos) (by rw [h2, h3]; exact hft.1) (colours f.photo)
    (by rw [h4]; exact cc_plain f h _ h5) (colours_cases _) ra
  rw [h2, h3] at k4 k6
  rw [h2] at k2
  rw [h3] at k3
  simp only [h2, h3] at k5
  refine ⟨b, k1, k2, k3, k4, ?_, ?_, ?_, k8⟩
  · intro x y hx hy
    rw [k5 x y hx hy, h6 0 x y (by rcases colours_cases f.photo with e | e <;> omega) hx hy]
    unfold colours
    by_cases hp : f.photo = 2
    · have hc : colours f.photo = 3 := by simp [colours, hp]
      rw [h6 1 x y (by omega) hx hy, h6 2 x y (by omega) hx hy]
      simp [hp]
    · simp [hp]
  · intro he hra
    obtain ⟨a1, a2, a3, a4⟩ := k6 (colours f.photo) (by rw [h5, if_neg he]) hra
    refine ⟨a1, a2, a3, ?_⟩
    intro x y hx hy
    have := a4 x y hx hy
    rw [this, h7 he x y hx hy]
  · rintro (he | hra)
    · exact k7 (Or.inl (by rw [h5, if_pos he]))
    · exact k7 (Or.inr hra)

/-- The mono reader's average of three numbers. -/
theorem mean_near {fl : ℚ → ℚ} (hfl : IsRounding fl) (r g b : ℚ) :
    ∃ m, mean fl (.val r) (.val g) (.val b) = .val m ∧ |m - (r + g + b) / 3| ≤ (|r| + |g| + |b|) / 2 ^ 22 := by
  refine ⟨_, rfl, ?_⟩
  have e1 := hfl.rel (r + g)
  generalize fl (r + g) = p at e1 ⊢
  have e2 := hfl.rel (p + b)
  generalize fl (p + b) = q at e2 ⊢
  have e3 := hfl.rel (q / 3)
  generalize fl (q / 3) = m at e3 ⊢
  have t1 := abs_add_le r g
  have t2 : |p| ≤ |p - (r + g)| + |r + g| := by have := abs_add_le (p - (r + g)) (r + g); simpa using this
  have t3 := abs_add_le p b
  have t4 : |q| ≤ |q - (p + b)| + |p + b| := by have := abs_add_le (q - (p + b)) (p + b); simpa using this
  have t5 : |q / 3| = |q| / 3 := by rw [abs_div]; norm_num
  rw [t5] at e3
  have t6 : |m - (r + g + b) / 3| ≤ |m - q / 3| + (|q - (p + b)| + |p - (r + g)|) / 3 := by
    have : m - (r + g + b) / 3 = (m - q / 3) + ((q - (p + b)) + (p - (r + g))) / 3 := by ring
    rw [this]
    refine (abs_add_le _ _).trans ?_
    gcongr
    rw [abs_div, abs_of_pos (by norm_num : (0 : ℚ) < 3)]
    gcongr
    exact abs_add_le _ _
  have hr := abs_nonneg r
  have hg := abs_nonneg g
  have hb := abs_nonneg b
  norm_num at e1 e2 e3 ⊢
  linarith

/-- **C105 (partial).**  The mono reader gives the grey value, or the average of the three colours; a NaN component gives NaN. -/
theorem C105_read_mono_partial {fl : ℚ → ℚ} (hfl : IsRounding fl) (lib : Lib) (d : List Byte) (f : File) (hf : lib.openMem d = some f)
    (h : Plain f) (hft : Fits f) (hok : Readable f) (ra : Bool) :
    ∃ b, readMono fl lib d ra = .ok b ∧ b.image.w = f.w ∧ b.image.h = f.h ∧ b.image.data.length = f.w * f.h ∧
      (f.photo ≠ 2 → ∀ x y, x < f.w → y < f.h → b.image.data[y * f.w + x]? = some (shown fl lib f x y 0)) ∧
      (f.photo = 2 → ∀ x y, x < f.w → y < f.h → ∃ v, b.image.data[y * f.w + x]? = some v ∧
        (∀ r g bl, shown fl lib f x y 0 = .val r → shown fl lib f x y 1 = .val g → shown fl lib f x y 2 = .val bl →
          ∃ m, v = .val m ∧ |m - (r + g + bl) / 3| ≤ (|r| + |g| + |bl|) / 2 ^ 22) ∧
        ((shown fl lib f x y 0 = .nan ∨ shown fl lib f x y 1 = .nan ∨ shown fl lib f x y 2 = .nan) → v = .nan)) ∧
      (f.extra ≠ [] → ra = true → b.alpha.w = f.w ∧ b.alpha.h = f.h ∧ b.alpha.data.length = f.w * f.h ∧
        ∀ x y, x < f.w → y < f.h → b.alpha.data[y * f.w + x]? = some (value fl lib f (f.sample x y (colours f.photo)))) ∧
      ((f.extra = [] ∨ ra = false) → b.alpha = ⟨0, 0, []⟩) ∧ b.hint = .sRGB ∧ b.gamma = 1 ∧ b.depth = 8 := by
  obtain ⟨t, h1, h2, h3, h4, h5, h6, h7⟩ := readFile_ok hfl lib f h hft hok
  obtain ⟨b, k1, k2, k3, k4, k5, k6, k7, k8⟩ := readImage_ok (fl := fl) (fun v => v) (mean fl) lib d f hf t h1
    (by rw [h2]; exact h.w_pos) (by rw [h3]; exact h.h_pos) (by rw [h2, h3]; exact hft.1) (colours f.photo)
    (by rw [h4]; exact cc_plain f h _ h5) (colours_cases _) ra
  rw [h2, h3] at k4 k6
  rw [h2] at k2
  rw [h3] at k3
  simp only [h2, h3] at k5
  refine ⟨b, k1, k2, k3, k4, ?_, ?_, ?_, ?_, k8⟩
  · intro hp x y hx hy
    have hc : colours f.photo = 1 := by simp [colours, hp]
    rw [k5 x y hx hy, h6 0 x y (by omega) hx hy, if_pos hc]
  · intro hp x y hx hy
    have hc : colours f.photo = 3 := by simp [colours, hp]
    refine ⟨_, k5 x y hx hy, ?_⟩
    rw [if_neg (by omega), h6 0 x y (by omega) hx hy, h6 1 x y (by omega) hx hy, h6 2 x y (by omega) hx hy]
    refine ⟨?_, ?_⟩
    · intro r g bl e1 e2 e3
      rw [e1, e2, e3]
      exact mean_near hfl r g bl
    · rintro (e | e | e) <;> rw [e]
      · rfl
      · cases shown fl lib f x y 0 <;> rfl
      · cases shown fl lib f x y 0 <;> cases shown fl lib f x y 1 <;> rfl
  · intro he hra
    obtain ⟨a1, a2, a3, a4⟩ := k6 (colours f.photo) (by rw [h5, if_neg he]) hra
    refine ⟨a1, a2, a3, ?_⟩
    intro x y hx hy
    have := a4 x y hx hy
    rw [this, h7 he x y hx hy]
  · rintro (he | hra)
    · exact k7 (Or.inl (by rw [h5, if_pos he]))
    · exact k7 (Or.inr hra)

/-- **C105 (partial).**  A palette file is read through its 8-bit colour map, with the alpha libtiff gives. -/
theorem C105_palette_partial {fl : ℚ → ℚ} (hfl : IsRounding fl) (lib : Lib) (d : List Byte) (f : File) (hf : lib.openMem d = some f)
    (hw : 0 < f.w) (hh : 0 < f.h) (hs : f.w * f.h < 2147483648) (hfmt : f.fmt = 1) (hb : f.bps = 8 ∨ f.bps = 16) (hp : f.photo = 3)
    (px : Nat → Nat → Nat → Nat) (hpx : f.rgba = some px) (h8 : ∀ x y c, px x y c ≤ 255) (ra : Bool) :
    ∃ b, readRGB fl lib d ra = .ok b ∧ b.image.w = f.w ∧ b.image.h = f.h ∧ b.image.data.length = f.w * f.h ∧
      (∀ x y, x < f.w → y < f.h → b.image.data[y * f.w + x]? =
        some (.val (fl (px x y 0 / 255)), .val (fl (px x y 1 / 255)), .val (fl (px x y 2 / 255)))) ∧
      (ra = true → b.alpha.w = f.w ∧ b.alpha.h = f.h ∧ b.alpha.data.length = f.w * f.h ∧
        ∀ x y, x < f.w → y < f.h → b.alpha.data[y * f.w + x]? = some (.val (fl (px x y 3 / 255)))) ∧
      (ra = false → b.alpha = ⟨0, 0, []⟩) := by
  have hacc : accepted f = true := by
    unfold accepted
    rcases hb with e | e <;> simp [hfmt, e, Nat.pos_iff_ne_zero.1 hw, Nat.pos_iff_ne_zero.1 hh]
  obtain ⟨t, ht, h1, h2, h3, h4, h5⟩ : ∃ t, readFile fl lib f = .ok t ∧ t.w = f.w ∧ t.h = f.h ∧ t.n = 4 ∧ t.alpha = some 3 ∧
      ∀ c x y, x < f.w → t.channels (c, y * f.w + x) = .val (fl (px x y c / 255)) := by
    refine ⟨⟨f.w, f.h, 4, fun k => .val (fl (fl (px (k.2 % f.w) (k.2 / f.w) k.1) / 255)), some 3⟩, ?_, rfl, rfl, rfl, rfl, ?_⟩
    · unfold readFile
      rw [if_pos hacc, if_pos hp]
      unfold readPalette
      rw [hpx]
    · intro c x y hx
      obtain ⟨e1, e2⟩ := dst_split f.w x y hx
      simp only [e1, e2]
      rw [hfl.exact (rep_nat _ (le_trans (h8 x y c) (by norm_num)))]
  obtain ⟨b, k1, k2, k3, k4, k5, k6, k7, k8⟩ := readImage_ok (fl := fl) (fun v => (v, v, v)) (fun r g b => (r, g, b)) lib d f hf t ht
    (by rw [h1]; exact hw) (by rw [h2]; exact hh) (by rw [h1, h2]; exact hs) 3 (by rw [h3, h4]; rfl) (Or.inr rfl) ra
  rw [h1, h2] at k4 k6
  rw [h1] at k2
  rw [h2] at k3
  simp only [h1, h2] at k5
  refine ⟨b, k1, k2, k3, k4, ?_, ?_, ?_⟩
  · intro x y hx hy
    rw [k5 x y hx hy, h5 0 x y hx, h5 1 x y hx, h5 2 x y hx]; simp
  · intro hra
    obtain ⟨a1, a2, a3, a4⟩ := k6 3 h4 hra
    exact ⟨a1, a2, a3, fun x y hx hy => by rw [a4 x y hx hy, h5 3 x y hx]⟩
  · intro hra; exact k7 (Or.inr hra)

/-! ## Refusals -/

theorem readImage_throw {P : Type} {fl : ℚ → ℚ} (grey : FV → P) (colour : FV → FV → FV → P) (lib : Lib) (d : List Byte) (ra : Bool)
    (h : readRaw fl lib d = .throw) : readImage fl grey colour lib d ra = .throw := by
  unfold readImage; rw [h]; rfl

/-- **C105.**  Bytes that libtiff cannot open, empty images, signed and unknown sample formats, other bit depths, and
palette images that cannot be expanded are refused. -/
theorem C105_refuses (fl : ℚ → ℚ) (lib : Lib) (d : List Byte) (ra : Bool)
    (h : lib.openMem d = none ∨ ∃ f, lib.openMem d = some f ∧ (f.w = 0 ∨ f.h = 0 ∨ (f.fmt ≠ 1 ∧ f.fmt ≠ 3) ∨
      (f.fmt = 1 ∧ f.bps ≠ 8 ∧ f.bps ≠ 16 ∧ f.bps ≠ 32) ∨ (f.fmt = 3 ∧ f.bps ≠ 32) ∨ (f.photo = 3 ∧ f.rgba = none))) :
    readRGB fl lib d ra = .throw ∧ readMono fl lib d ra = .throw := by
  have key : readRaw fl lib d = .throw := by
    unfold readRaw
    rcases h with h | ⟨f, hf, h⟩
    · rw [h]
    · rw [hf]
      show readFile fl lib f = _
      unfold readFile
      by_cases ha : accepted f = true
      · rw [if_pos ha]
        have hp : f.photo = 3 ∧ f.rgba = none := by
          unfold accepted at ha
          simp only [Bool.and_eq_true, Bool.not_eq_true', Bool.or_eq_false_iff, decide_eq_false_iff_not, decide_eq_true_eq,
            Bool.or_eq_true, Bool.ite_eq_true_distrib] at ha
          obtain ⟨⟨⟨⟨a1, a2⟩, a3⟩, a4⟩, a5⟩ := ha
          rcases h with h | h | h | h | h | h
          · exact absurd h a1
          · exact absurd h a2
          · rcases a4 with a4 | a4
            · exact absurd a4 h.2
            · exact absurd a4 h.1
          · simp [h.1, h.2] at a5
          · simp [h.1, h.2] at a5
          · exact h
        rw [if_pos hp.1]
        unfold readPalette; rw [hp.2]
      · rw [if_neg ha]
  exact ⟨readImage_throw _ _ lib d ra key, readImage_throw _ _ lib d ra key⟩

/-- **C105.**  A file with another number of colour channels than one or three is refused. -/
theorem C105_channels {fl : ℚ → ℚ} (hfl : IsRounding fl) (lib : Lib) (d : List Byte) (f : File) (hf : lib.openMem d = some f)
    (h : Basic f) (hft : Fits f) (hok : Readable f) (ra : Bool)
    (hc : (f.extra = [] ∧ f.spp ≠ 1 ∧ f.spp ≠ 3) ∨ ((∃ e l, f.extra = e :: l ∧ (e = 1 ∨ e = 2)) ∧ f.spp ≠ 2 ∧ f.spp ≠ 4)) :
    readRGB fl lib d ra = .throw ∧ readMono fl lib d ra = .throw := by
  obtain ⟨t, h1, h2, h3, h4, h5, h6⟩ := readFile_basic hfl lib f h hft hok
  have hr : readRaw fl lib d = .ok t := by unfold readRaw; rw [hf]; exact h1
  have hspp := h.spp_pos
  have hn : (if t.alpha.isSome then t.n - 1 else t.n) ≠ 1 ∧ (if t.alpha.isSome then t.n - 1 else t.n) ≠ 3 := by
    rw [h4, h5]
    unfold alphaIndex
    rcases hc with ⟨e, c⟩ | ⟨⟨e, l, he, h12⟩, c⟩
    · simp [e, c]
    · simp [he, h12]; omega
  have key : ∀ {P : Type} (grey : FV → P) (colour : FV → FV → FV → P), readImage fl grey colour lib d ra = .throw := by
    intro P grey colour
    unfold readImage
    rw [hr, Res.ok_bind]
    simp only
    rw [if_pos hn]
  exact ⟨key _ _, key _ _⟩

theorem foldRes_throw {σ α : Type} (step : σ → α → Res σ) : ∀ (l : List α) (s : σ),
    (∀ a ∈ l, ∀ s, (∃ s', step s a = .ok s') ∨ step s a = .throw) → (∃ a ∈ l, ∀ s, step s a = .throw) → foldRes step l s = .throw
  | [], s, _, h => by obtain ⟨a, ha, _⟩ := h; simp at ha
  | a :: l, s, h, ⟨b, hb, hb'⟩ => by
    unfold foldRes
    rcases h a (List.mem_cons_self ..) s with ⟨s', e⟩ | e
    · rw [e, Res.ok_bind]
      rcases List.mem_cons.1 hb with rfl | hb
      · rw [hb' s] at e; cases e
      · exact foldRes_throw step l s' (fun c hc => h c (List.mem_cons_of_mem _ hc)) ⟨b, hb, hb'⟩
    · rw [e]; rfl

/-- **C105.**  A strip that cannot be decoded makes the reader fail: no partly read image is returned. -/
theorem C105_strip_checked {fl : ℚ → ℚ} (hfl : IsRounding fl) (lib : Lib) (d : List Byte) (f : File) (hf : lib.openMem d = some f)
    (h : Basic f) (hft : Fits f) (ht : f.tile = none) (ra : Bool)
    (hbad : ∃ y s, y < f.h ∧ f.rowOk y s = false ∧ s < (if f.contig then 1 else f.spp)) :
    readRGB fl lib d ra = .throw ∧ readMono fl lib d ra = .throw := by
  obtain ⟨y, s, hy, hrow, hs⟩ := hbad
  have key : readStripped ⟨fl, lib, f, decide (f.fmt = 3), f.bps / 8⟩ (fun _ => .val 0) = .throw := by
    unfold readStripped
    cases hct : f.contig with
    | true =>
      simp only [hct, if_true] at hs ⊢
      apply foldRes_throw
      · intro a ha st
        cases hr : f.rowOk a 0 with
        | true => left; obtain ⟨s', k, _⟩ := rowContig_ok hfl lib f h hft hct a (List.mem_range.1 ha) hr st; exact ⟨s', k⟩
        | false => right; unfold rowContig; simp [hr]
      · refine ⟨y, List.mem_range.2 hy, fun st => ?_⟩
        have : s = 0 := by omega
        subst this
        unfold rowContig; simp [hrow]
    | false =>
      simp only [hct, Bool.false_eq_true, if_false] at hs ⊢
      apply foldRes_throw
      · intro p hp st
        simp only [List.mem_flatMap, List.mem_range, List.mem_map] at hp
        obtain ⟨ch, hch, z, hz, rfl⟩ := hp
        cases hr : f.rowOk z ch with
        | true => left; obtain ⟨s', k, _⟩ := rowSeparate_ok hfl lib f h hft hct ch z hch hz hr st; exact ⟨s', k⟩
        | false => right; unfold rowSeparate; simp [hr]
      · refine ⟨(s, y), ?_, fun st => ?_⟩
        · simp only [List.mem_flatMap, List.mem_range, List.mem_map]
          exact ⟨s, hs, y, hy, rfl⟩
        · unfold rowSeparate; simp [hrow]
  have hacc : accepted f = true := by
    have h1 := h.w_pos
    have h2 := h.h_pos
    unfold accepted
    rcases h.form with ⟨e, e' | e' | e'⟩ | ⟨e, e'⟩ <;> simp [e, e', Nat.pos_iff_ne_zero.1 h1, Nat.pos_iff_ne_zero.1 h2]
  have hr : readRaw fl lib d = .throw := by
    unfold readRaw; rw [hf]
    show readFile fl lib f = _
    unfold readFile
    rw [if_pos hacc, if_neg h.plain.1]
    simp only [readStored, ht]
    rw [key]; rfl
  exact ⟨readImage_throw _ _ lib d ra hr, readImage_throw _ _ lib d ra hr⟩

/-! ## What does not hold -/

/-- The loops agree while the invariant holds. -/
theorem foldRes_congr {σ α : Type} (step step' : σ → α → Res σ) (Inv : σ → Prop)
    (h1 : ∀ a s, Inv s → step s a = step' s a) (h2 : ∀ a s s', Inv s → step s a = .ok s' → Inv s') :
    ∀ (l : List α) (s : σ), Inv s → foldRes step l s = foldRes step' l s
  | [], s, _ => rfl
  | a :: l, s, hs => by
    unfold foldRes
    rw [← h1 a s hs]
    cases e : step s a with
    | ok s' => rw [Res.ok_bind, Res.ok_bind]; exact foldRes_congr step step' Inv h1 h2 l s' (h2 a s s' hs e)
    | throw => rfl
    | ub => rfl

/-- The same file with every tile decoded to zeros. -/
def blank (f : File) : File := { f with sample := fun _ _ _ => 0, tileOk := fun _ _ _ => true, rowOk := fun _ _ => true }

theorem blank_tile (f : File) (tw th tx ty s : Nat) : tileBuf (blank f) tw th tx ty s = List.replicate (tileSize f tw th) 0 := by
  unfold tileBuf
  show (List.range (tileSize f tw th)).map _ = _
  have : (fun k => let i := k / ((blank f).bps / 8); let q := i / (blank f).perPixel;
      byteOf ((blank f).sample (tx + q % tw) (ty + q / tw) (chanOf (blank f) s i)) (k % ((blank f).bps / 8))) = fun _ => 0 := by
    funext k; simp [blank, byteOf]
  rw [this, List.map_const', List.length_range]

theorem tileContig_blank (fl : ℚ → ℚ) (lib : Lib) (f : File) (fm : Bool) (by' : Nat) (tw th : Nat) (hbad : ∀ x y s, f.tileOk x y s = false)
    (p : Nat × Nat) (s : List Nat × Store) (hs : s.1 = List.replicate (tileSize f tw th) 0) :
    tileContig ⟨fl, lib, f, fm, by'⟩ tw th s p = tileContig ⟨fl, lib, blank f, fm, by'⟩ tw th s p := by
  unfold tileContig
  have e1 : (if (f.tileOk p.1 p.2 0) = true then tileBuf f tw th p.1 p.2 0 else s.1) = List.replicate (tileSize f tw th) 0 := by
    rw [hbad]; simpa using hs
  have e2 : (if ((blank f).tileOk p.1 p.2 0) = true then tileBuf (blank f) tw th p.1 p.2 0 else s.1) = List.replicate (tileSize f tw th) 0 := by
    rw [blank_tile]; simp [blank]
  simp only [e1, e2]
  rfl

theorem tileSeparate_blank (fl : ℚ → ℚ) (lib : Lib) (f : File) (fm : Bool) (by' : Nat) (tw th : Nat) (hbad : ∀ x y s, f.tileOk x y s = false)
    (p : Nat × Nat × Nat) (s : List Nat × Store) (hs : s.1 = List.replicate (tileSize f tw th) 0) :
    tileSeparate ⟨fl, lib, f, fm, by'⟩ tw th s p = tileSeparate ⟨fl, lib, blank f, fm, by'⟩ tw th s p := by
  unfold tileSeparate
  have e1 : (if (f.tileOk p.2.1 p.2.2 p.1) = true then tileBuf f tw th p.2.1 p.2.2 p.1 else s.1) = List.replicate (tileSize f tw th) 0 := by
    rw [hbad]; simpa using hs
  have e2 : (if ((blank f).tileOk p.2.1 p.2.2 p.1) = true then tileBuf (blank f) tw th p.2.1 p.2.2 p.1 else s.1) = List.replicate (tileSize f tw th) 0 := by
    rw [blank_tile]; simp [blank]
  simp only [e1, e2]
  rfl

theorem tileContig_buf (fl : ℚ → ℚ) (lib : Lib) (f : File) (fm : Bool) (by' : Nat) (tw th : Nat) (hbad : ∀ x y s, f.tileOk x y s = false)
    (p : Nat × Nat) (s s' : List Nat × Store) (h : tileContig ⟨fl, lib, f, fm, by'⟩ tw th s p = .ok s') : s'.1 = s.1 := by
  unfold tileContig at h
  simp only [hbad, Bool.false_eq_true, if_false] at h
  obtain ⟨st, hst, e⟩ := (Res.bind_ok_iff _ _ _).1 h
  cases e; rfl

theorem tileSeparate_buf (fl : ℚ → ℚ) (lib : Lib) (f : File) (fm : Bool) (by' : Nat) (tw th : Nat) (hbad : ∀ x y s, f.tileOk x y s = false)
    (p : Nat × Nat × Nat) (s s' : List Nat × Store) (h : tileSeparate ⟨fl, lib, f, fm, by'⟩ tw th s p = .ok s') : s'.1 = s.1 := by
  unfold tileSeparate at h
  simp only [hbad, Bool.false_eq_true, if_false] at h
  obtain ⟨st, hst, e⟩ := (Res.bind_ok_iff _ _ _).1 h
  cases e; rfl

/-- **C105 (violated).**  A tiled file none of whose tiles can be decoded is not refused: an image of zero samples comes
back (black, or white for MinIsWhite), as if that were the contents. -/
theorem C105_tile_unchecked {fl : ℚ → ℚ} (hfl : IsRounding fl) (lib : Lib) (d : List Byte) (f : File) (hf : lib.openMem d = some f)
    (h : Plain f) (hft : Fits f) (ht : f.tile ≠ none) (hbad : ∀ x y s, f.tileOk x y s = false) (ra : Bool) :
    ∃ b, readRGB fl lib d ra = .ok b ∧ b.image.w = f.w ∧ b.image.h = f.h ∧
      ∀ x y, x < f.w → y < f.h → b.image.data[y * f.w + x]? = some (
        let v := if f.photo = 0 then invert fl (value fl lib f 0) else value fl lib f 0
        (v, v, v)) := by
  have hread : readFile fl lib f = readFile fl lib (blank f) := by
    cases htt : f.tile with
    | none => exact absurd htt ht
    | some p =>
      obtain ⟨tw, th⟩ := p
      have key : readTiled ⟨fl, lib, f, decide (f.fmt = 3), f.bps / 8⟩ tw th (fun _ => .val 0) =
          readTiled ⟨fl, lib, blank f, decide (f.fmt = 3), f.bps / 8⟩ tw th (fun _ => .val 0) := by
        unfold readTiled
        have e1 := foldRes_congr (tileContig ⟨fl, lib, f, decide (f.fmt = 3), f.bps / 8⟩ tw th) (tileContig ⟨fl, lib, blank f, decide (f.fmt = 3), f.bps / 8⟩ tw th)
          (fun s => s.1 = List.replicate (tileSize f tw th) 0) (fun a s hs => tileContig_blank fl lib f _ _ tw th hbad a s hs)
          (fun a s s' hs hk => by rw [tileContig_buf fl lib f _ _ tw th hbad a s s' hk]; exact hs)
        have e2 := foldRes_congr (tileSeparate ⟨fl, lib, f, decide (f.fmt = 3), f.bps / 8⟩ tw th) (tileSeparate ⟨fl, lib, blank f, decide (f.fmt = 3), f.bps / 8⟩ tw th)
          (fun s => s.1 = List.replicate (tileSize f tw th) 0) (fun a s hs => tileSeparate_blank fl lib f _ _ tw th hbad a s hs)
          (fun a s s' hs hk => by rw [tileSeparate_buf fl lib f _ _ tw th hbad a s s' hk]; exact hs)
        show (starts f.w tw 4294967297 0 >>= fun xs => starts f.h th 4294967297 0 >>= fun ys => _) =
          (starts f.w tw 4294967297 0 >>= fun xs => starts f.h th 4294967297 0 >>= fun ys => _)
        congr 1; funext xs; congr 1; funext ys
        have e3 := e1 (corners xs ys) (List.replicate (tileSize f tw th) 0, fun _ => .val 0) rfl
        have e4 := e2 ((List.range f.spp).flatMap fun ch => (corners xs ys).map fun p => (ch, p)) (List.replicate (tileSize f tw th) 0, fun _ => .val 0) rfl
        show (if f.contig = true then _ else _) = (if f.contig = true then _ else _)
        split
        · exact congrArg (fun r => r >>= fun r => Res.ok r.2) e3
        · exact congrArg (fun r => r >>= fun r => Res.ok r.2) e4
      unfold readFile
      show (if accepted f = true then _ else _) = (if accepted f = true then _ else _)
      congr 1
      show (if f.photo = 3 then _ else _) = (if f.photo = 3 then _ else _)
      congr 1
      simp only [readStored, htt]
      rw [key]
      simp only [blank, htt]
      rfl
  have hp : Plain (blank f) := ⟨⟨h.w_pos, h.h_pos, h.form, h.plain, h.spp_pos, fun _ _ _ _ _ _ => by show 0 < _; positivity, h.tile⟩, h.photo, h.extra, h.spp⟩
  have hl : (⟨fun _ => some (blank f), lib.save, lib.asFloat⟩ : Lib).openMem d = some (blank f) := rfl
  obtain ⟨b, k1, k2, k3, k4, k5, _⟩ := C105_read_partial hfl ⟨fun _ => some (blank f), lib.save, lib.asFloat⟩ d (blank f) hl hp hft ⟨fun _ _ => rfl, fun _ _ _ => rfl⟩ ra
  refine ⟨b, ?_, k2, k3, ?_⟩
  · rw [← k1]
    unfold readRGB readImage readRaw
    rw [hf]
    simp only
    rw [hread]
    rfl
  · intro x y hx hy
    refine (k5 x y hx hy).trans ?_
    simp only [shown]
    show some (if f.photo = 2 then _ else _) = _
    split <;> rfl

theorem foldRes_ub {σ α : Type} (step : σ → α → Res σ) : ∀ (l : List α) (s : σ),
    (∀ a ∈ l, ∀ s, step s a ≠ .throw) → (∃ a ∈ l, ∀ s, step s a = .ub) → foldRes step l s = .ub
  | [], s, _, h => by obtain ⟨a, ha, _⟩ := h; simp at ha
  | a :: l, s, h, ⟨b, hb, hb'⟩ => by
    unfold foldRes
    cases e : step s a with
    | ok s' =>
      rw [Res.ok_bind]
      rcases List.mem_cons.1 hb with rfl | hb
      · rw [hb' s] at e; cases e
      · exact foldRes_ub step l s' (fun c hc => h c (List.mem_cons_of_mem _ hc)) ⟨b, hb, hb'⟩
    | throw => exact absurd e (h a (List.mem_cons_self ..) s)
    | ub => rfl

/-- **C105 (violated).**  A YCbCr file with the usual 2×2 chroma subsampling, stored in strips: the reader walks past the end
of the (half as long) row buffer. -/
theorem C105_ycbcr_oob (fl : ℚ → ℚ) (lib : Lib) (d : List Byte) (f : File) (hf : lib.openMem d = some f) (hw : 2 ≤ f.w) (hw' : f.w < 715827882)
    (hh : 0 < f.h) (hfmt : f.fmt = 1) (hb : f.bps = 8) (hp : f.photo = 6) (hs : f.spp = 3) (hct : f.contig = true) (hsub : f.sub = (2, 2))
    (ht : f.tile = none) (hrow : f.rowOk 0 0 = true) (ra : Bool) : readRGB fl lib d ra = .ub := by
  have hsize : scanlineSize f = (f.w + 1) / 2 * 3 := by
    unfold scanlineSize File.blocks
    simp only [hct, hp, hs, hsub, hb]
    simp
    omega
  have hlen : ∀ y, (rowBuf f y 0).length = (f.w + 1) / 2 * 3 := by intro y; unfold rowBuf; rw [List.length_map, List.length_range, hsize]
  have row : ∀ st, rowContig ⟨fl, lib, f, decide (f.fmt = 3), f.bps / 8⟩ st 0 = .ub := by
    intro st
    unfold rowContig
    simp only [hrow, if_true]
    apply foldRes_ub
    · intro q hq s
      have : ∀ buf off k, bufAt buf off k ≠ .throw := by
        intro buf off k; unfold bufAt; simp only; split
        · simp
        · split <;> simp
      intro hc
      simp only [hfmt, hb, sampleToFloat] at hc
      norm_num at hc
      cases e : bufAt (rowBuf f 0 0) (q.2.1 * f.spp + q.2.2) 0 with
      | throw => exact absurd e (this _ _ _)
      | ub => rw [e] at hc; simp at hc
      | ok v =>
        rw [e] at hc; simp only [Res.ok_bind] at hc
        unfold put at hc; split at hc <;> cases hc
    · refine ⟨(0, f.w - 1, 2), (mem_cells _ _ _ _).2 ⟨by norm_num, by show f.w - 1 < f.w; omega, by rw [hs]; show 2 < 3; norm_num⟩, ?_⟩
      intro s
      simp only [hfmt, hb, hs, sampleToFloat]
      norm_num
      have : bufAt (rowBuf f 0 0) ((f.w - 1) * 3 + 2) 0 = .ub := by
        unfold bufAt
        have e : s32 (((f.w - 1) * 3 + 2) % 4294967296) = (((f.w - 1) * 3 + 2 : Nat) : Int) := by
          unfold s32; rw [Nat.mod_eq_of_lt (by omega), if_pos (by omega)]
        simp only [e]
        rw [if_neg (by omega)]
        have e2 : ((((f.w - 1) * 3 + 2 : Nat) : Int) + ((0 : Nat) : Int)).toNat = (f.w - 1) * 3 + 2 := by omega
        rw [e2, List.getElem?_eq_none (by rw [hlen]; omega)]
      rw [this]; rfl
  have hr : readRaw fl lib d = .ub := by
    unfold readRaw; rw [hf]
    show readFile fl lib f = _
    unfold readFile
    have hacc : accepted f = true := by
      unfold accepted; simp [hfmt, hb]; omega
    rw [if_pos hacc, if_neg (by omega)]
    simp only [readStored, ht, readStripped, hct, if_true]
    obtain ⟨n, hn⟩ : ∃ n, f.h = n + 1 := ⟨f.h - 1, by omega⟩
    rw [hn, List.range_succ_eq_map]
    unfold foldRes
    rw [row]; rfl
  unfold readRGB readImage
  rw [hr]; rfl

/-- **C105 (violated).**  What the samples mean is not looked at: any file of three samples (CIE L*a*b*, say, or grey with
two unspecified extra samples) is shown as red, green and blue. -/
theorem C105_photometric {fl : ℚ → ℚ} (hfl : IsRounding fl) (lib : Lib) (d : List Byte) (f : File) (hf : lib.openMem d = some f)
    (h : Basic f) (hft : Fits f) (hok : Readable f) (hp : f.photo ≠ 0) (hs : f.spp = 3) (he : f.extra = [] ∨ ∃ l, f.extra = 0 :: l) (ra : Bool) :
    ∃ b, readRGB fl lib d ra = .ok b ∧ ∀ x y, x < f.w → y < f.h → b.image.data[y * f.w + x]? =
      some (value fl lib f (f.sample x y 0), value fl lib f (f.sample x y 1), value fl lib f (f.sample x y 2)) := by
  obtain ⟨t, h1, h2, h3, h4, h5, h6⟩ := readFile_basic hfl lib f h hft hok
  have hal : alphaIndex f = none := by unfold alphaIndex; rcases he with e | ⟨l, e⟩ <;> simp [e]
  obtain ⟨b, k1, k2, k3, k4, k5, k6, k7, k8⟩ := readImage_ok (fl := fl) (fun v => (v, v, v)) (fun r g b => (r, g, b)) lib d f hf t h1
    (by rw [h2]; exact h.w_pos) (by rw [h3]; exact h.h_pos) (by rw [h2, h3]; exact hft.1) 3 (by rw [h4, h5, hal]; simpa using hs) (Or.inr rfl) ra
  simp only [h2, h3] at k5
  refine ⟨b, k1, ?_⟩
  intro x y hx hy
  rw [k5 x y hx hy, h6 0 x y (by omega) hx hy, h6 1 x y (by omega) hx hy, h6 2 x y (by omega) hx hy]
  simp [hp]

/-- **C105 (violated).**  A grey file with an alpha channel and two further samples: the alpha channel is shown as green, and
the last of the unspecified samples is delivered as alpha. -/
theorem C105_alpha_misplaced {fl : ℚ → ℚ} (hfl : IsRounding fl) (lib : Lib) (d : List Byte) (f : File) (hf : lib.openMem d = some f)
    (h : Basic f) (hft : Fits f) (hok : Readable f) (hp : f.photo = 1) (hs : f.spp = 4) (he : f.extra = [2, 0, 0]) :
    ∃ b, readRGB fl lib d true = .ok b ∧ ∀ x y, x < f.w → y < f.h →
      b.image.data[y * f.w + x]? = some (value fl lib f (f.sample x y 0), value fl lib f (f.sample x y 1), value fl lib f (f.sample x y 2)) ∧
      b.alpha.data[y * f.w + x]? = some (value fl lib f (f.sample x y 3)) := by
  obtain ⟨t, h1, h2, h3, h4, h5, h6⟩ := readFile_basic hfl lib f h hft hok
  have hal : alphaIndex f = some 3 := by unfold alphaIndex; simp [he, hs]
  obtain ⟨b, k1, k2, k3, k4, k5, k6, k7, k8⟩ := readImage_ok (fl := fl) (fun v => (v, v, v)) (fun r g b => (r, g, b)) lib d f hf t h1
    (by rw [h2]; exact h.w_pos) (by rw [h3]; exact h.h_pos) (by rw [h2, h3]; exact hft.1) 3 (by rw [h4, h5, hal]; simp; omega) (Or.inr rfl) true
  simp only [h2, h3] at k5 k6
  refine ⟨b, k1, ?_⟩
  intro x y hx hy
  obtain ⟨_, _, _, a4⟩ := k6 3 (by rw [h5, hal]) trivial
  refine ⟨?_, ?_⟩
  · rw [k5 x y hx hy, h6 0 x y (by omega) hx hy, h6 1 x y (by omega) hx hy, h6 2 x y (by omega) hx hy]
    simp [hp]
  · rw [a4 x y hx hy, h6 3 x y (by omega) hx hy]
    simp [hp]

/-- **C105 (violated).**  A palette file of 2^31 pixels or more, with sides below 2^31: the product of width and height
overflows `int`. -/
theorem C105_overflow (fl : ℚ → ℚ) (lib : Lib) (d : List Byte) (f : File) (hf : lib.openMem d = some f)
    (hw : 0 < f.w) (hh : 0 < f.h) (hw' : f.w < 2147483648) (hh' : f.h < 2147483648) (hs : 2147483648 ≤ f.w * f.h) (hfmt : f.fmt = 1)
    (hb : f.bps = 8) (hp : f.photo = 3) (hpx : f.rgba ≠ none) (ra : Bool) : readRGB fl lib d ra = .ub := by
  have hacc : accepted f = true := by unfold accepted; simp [hfmt, hb, Nat.pos_iff_ne_zero.1 hw, Nat.pos_iff_ne_zero.1 hh]
  obtain ⟨px, hpx⟩ := Option.ne_none_iff_exists'.1 hpx
  have hr : ∃ t, readRaw fl lib d = .ok t ∧ t.w = f.w ∧ t.h = f.h ∧ t.n = 4 ∧ t.alpha = some 3 := by
    unfold readRaw; rw [hf]
    show ∃ t, readFile fl lib f = _ ∧ _
    unfold readFile
    rw [if_pos hacc, if_pos hp]
    unfold readPalette; rw [hpx]
    exact ⟨_, rfl, rfl, rfl, rfl, rfl⟩
  obtain ⟨t, ht, h1, h2, h3, h4⟩ := hr
  have ha : allocate t.w t.h = .ub := by
    rw [h1, h2]
    unfold allocate
    have e1 : s32 f.w = f.w := by unfold s32; rw [if_pos hw']
    have e2 : s32 f.h = f.h := by unfold s32; rw [if_pos hh']
    rw [if_neg (by omega), e1, e2]
    have : i32 ((f.w : Int) * f.h) = .ub := by
      unfold i32; rw [if_neg]
      rintro ⟨_, k⟩
      have : f.w * f.h < 2147483648 := by exact_mod_cast k
      omega
    rw [this]; rfl
  unfold readRGB readImage
  rw [ht, Res.ok_bind]
  simp only [h3, h4, Option.isSome_some, if_true]
  rw [if_neg (by omega), ha]; rfl

end Huira.ImageIO.Tiff
