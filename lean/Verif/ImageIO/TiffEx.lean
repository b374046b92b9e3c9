import Verif.ImageIO.TiffWrite
/-!
# TIFF: the property in full, a libtiff that meets the assumptions, examples (C105)
-/
set_option linter.unusedSimpArgs false
set_option linter.unusedVariables false
namespace Huira.ImageIO.Tiff
open Huira.Num Huira.ImageIO Huira.ImageIO.Convert
open Huira.ImageIO.Png (FV Img Bundle Hint pixelAt)

/-! ## A libtiff with this behaviour exists -/

abbrev Pack := (ℕ × ℕ × ℕ × ℕ) × (ℕ × ℕ × Bool) × List ℕ × Option (ℕ × ℕ) × (ℕ × ℕ) × List ℕ × Bool

/-- Everything in a file, as lists. -/
def pack (f : File) : Pack := ((f.w, f.h, f.spp, f.bps), (f.fmt, f.photo, f.contig), f.extra, f.tile, f.sub,
  (List.range (f.h * f.w * f.spp)).map (fun i => f.sample (i / f.spp % f.w) (i / f.spp / f.w) (i % f.spp)), f.tileOk 0 0 0)

def unpack (p : Pack) : File :=
  { w := p.1.1, h := p.1.2.1, spp := p.1.2.2.1, bps := p.1.2.2.2, fmt := p.2.1.1, photo := p.2.1.2.1, contig := p.2.1.2.2, extra := p.2.2.1
    tile := p.2.2.2.1, sub := p.2.2.2.2.1
    sample := fun x y c => (p.2.2.2.2.2.1[(y * p.1.1 + x) * p.1.2.2.1 + c]?).getD 0
    rgba := none, rowOk := fun _ _ => true, tileOk := fun _ _ _ => p.2.2.2.2.2.2 }

/-- A toy TIFF codec: a unary code. -/
def toyLib : Lib where
  openMem d := (Encodable.decode (α := Pack) d.length).map unpack
  save f := List.replicate (Encodable.encode (pack f)) 0
  asFloat n := .val n

theorem toy_open (f : File) : toyLib.openMem (toyLib.save f) = some (unpack (pack f)) := by
  simp only [toyLib, List.length_replicate, Encodable.encodek]; rfl

theorem toy_same (f : File) : Same f (unpack (pack f)) := by
  refine ⟨rfl, rfl, rfl, rfl, rfl, rfl, rfl, rfl, rfl, ?_⟩
  intro x y c hx hy hc
  have h1 := idx_lt (f.h * f.w) f.spp 1 (y * f.w + x) c 0 (by rw [Nat.mul_comm f.h]; exact dst_lt _ _ _ _ hx hy) hc (by omega)
  obtain ⟨_, _, e3, e4⟩ := idx_split (y * f.w + x) f.spp c 1 0 hc (by omega)
  obtain ⟨e1, e2⟩ := dst_split f.w x y hx
  show (((List.range (f.h * f.w * f.spp)).map (fun i => f.sample (i / f.spp % f.w) (i / f.spp / f.w) (i % f.spp)))[(y * f.w + x) * f.spp + c]?).getD 0 = _
  rw [List.getElem?_map, List.getElem?_range (by omega)]
  simp [e1, e2, e3, e4]

/-- The toy codec with every file readable. -/
def goodLib : Lib where
  openMem d := (toyLib.openMem d).map fun f => { f with tileOk := fun _ _ _ => true }
  save := toyLib.save
  asFloat := toyLib.asFloat

theorem goodLib_ok : LibOk goodLib := by
  intro f hp ht
  have hs := toy_same f
  refine ⟨{ unpack (pack f) with tileOk := fun _ _ _ => true }, by simp only [goodLib, toy_open]; rfl, ?_, fun _ _ => rfl, fun _ _ _ => rfl⟩
  exact ⟨hs.w, hs.h, hs.spp, hs.bps, hs.fmt, hs.photo, hs.contig, hs.extra, hs.tile, hs.sample⟩

/-! ## The property in full -/

/-- Reading and writing never misbehave, a file that cannot be decoded is refused, and what is written comes back with its
alpha channel, colour space and depth. -/
def C105_full : Prop := ∀ fl : ℚ → ℚ, IsRounding fl → ∀ lib, LibOk lib →
  (∀ d ra, readRGB fl lib d ra ≠ .ub) ∧ (∀ b, b.image.WF → b.alpha.WF → writeRGB fl lib b ≠ .ub) ∧
  (∀ d f b, lib.openMem d = some f → (∃ x y s, f.tile ≠ none ∧ f.tileOk x y s = false) → readRGB fl lib d true ≠ .ok b) ∧
  ∀ b d b', b.image.WF → b.alpha.WF → writeRGB fl lib b = .ok d → readRGB fl lib d true = .ok b' →
    b'.hint = b.hint ∧ b'.depth = b.depth ∧ b'.alpha.w = b.alpha.w

theorem C105_violated : ¬ C105_full := by
  intro h
  obtain ⟨_, h2, _⟩ := h float32 float32_exists goodLib goodLib_ok
  exact h2 _ (by simp [Img.WF]) (by simp [Img.WF]) (C105_nan float32 goodLib).1

/-- A 4×2 subsampled YCbCr file. -/
def ycbcr : File := ⟨4, 2, 3, 8, 1, 6, true, [], none, (2, 2), fun _ _ _ => 0, none, fun _ _ => true, fun _ _ _ => true⟩

/-- Each part fails on its own: reading past a buffer. -/
theorem C105_violated_read : ∃ d, readRGB float32 goodLib d true = .ub := by
  refine ⟨goodLib.save ycbcr, C105_ycbcr_oob float32 goodLib _ { unpack (pack ycbcr) with tileOk := fun _ _ _ => true } ?_ ?_ ?_ ?_ rfl rfl rfl rfl rfl rfl rfl rfl true⟩
  · simp only [goodLib, toy_open]; rfl
  · show 2 ≤ 4; norm_num
  · show 4 < _; norm_num
  · show 0 < 2; norm_num

/-- A 16×16 tiled grey file. -/
def tiled : File := ⟨16, 16, 1, 8, 1, 1, true, [], some (16, 16), (2, 2), fun x y _ => x + y, none, fun _ _ => true, fun _ _ _ => false⟩

/-- Each part fails on its own: the toy codec cannot decode the tile, and the
reader returns black although the sample stored there is 10. -/
theorem C105_violated_tile : ∃ d f b, toyLib.openMem d = some f ∧ f.tileOk 0 0 0 = false ∧ f.sample 5 5 0 = 10 ∧
    readRGB float32 toyLib d true = .ok b ∧ b.image.data[5 * 16 + 5]? = some (.val (float32 0), .val (float32 0), .val (float32 0)) := by
  have hs := toy_same tiled
  have hp : Plain (unpack (pack tiled)) := by
    refine ⟨⟨by show 0 < 16; norm_num, by show 0 < 16; norm_num, Or.inl ⟨rfl, Or.inl rfl⟩, ⟨by decide, by decide⟩, by show 0 < 1; norm_num, ?_, ?_⟩, Or.inr (Or.inl rfl), Or.inl rfl, rfl⟩
    · intro x y c hx hy hc
      have hx' : x < 16 := hx
      have hy' : y < 16 := hy
      rw [hs.sample x y c hx hy hc]
      show x + y < 2 ^ 8
      omega
    · intro tw th h
      have h' : some ((16 : ℕ), (16 : ℕ)) = some (tw, th) := h
      simp at h'; omega
  have hft : Fits (unpack (pack tiled)) := by
    refine ⟨by show 16 * 16 < _; norm_num, by show (16 * 1 * 8 + 7) / 8 < _; norm_num, ?_⟩
    intro tw th h
    have h' : some ((16 : ℕ), (16 : ℕ)) = some (tw, th) := h
    simp at h'
    obtain ⟨rfl, rfl⟩ := h'
    refine ⟨by norm_num, by norm_num, ?_⟩
    show (16 * 1 * 8 + 7) / 8 * 16 < _
    norm_num
  obtain ⟨b, h1, h2, h3, h4⟩ := C105_tile_unchecked float32_exists toyLib _ _ (toy_open tiled) hp hft (by simp [unpack, pack, tiled]) (fun _ _ _ => rfl) true
  refine ⟨_, _, b, toy_open tiled, rfl, ?_, h1, ?_⟩
  · rw [hs.sample 5 5 0 (by show 5 < 16; norm_num) (by show 5 < 16; norm_num) (by show 0 < 1; norm_num)]; rfl
  · have := h4 5 5 (by show 5 < 16; norm_num) (by show 5 < 16; norm_num)
    have hw : (unpack (pack tiled)).w = 16 := rfl
    rw [hw] at this
    rw [this]
    have e1 : (unpack (pack tiled)).photo = 1 := rfl
    have e2 : (unpack (pack tiled)).fmt = 1 := rfl
    simp [e1, e2, value]

/-- Each part fails on its own: the alpha channel is lost. -/
theorem C105_violated_alpha : ∃ b d b', b.image.WF ∧ b.alpha.WF ∧ b.alpha.w = 1 ∧ writeRGB float32 goodLib b = .ok d ∧
    readRGB float32 goodLib d true = .ok b' ∧ b'.alpha.w = 0 := by
  obtain ⟨d, b', h1, h2, h3, _⟩ := C105_metadata_lost float32_exists goodLib goodLib_ok
    ⟨⟨1, 1, [(.val 0, .val 0, .val 0)]⟩, ⟨1, 1, [.val (1 / 2)]⟩, .linear, 1, 8⟩ (Or.inl rfl) (by simp [NoNaN]) (by norm_num) (by norm_num) (by norm_num) (by norm_num)
    (by simp [Img.WF]) true
  exact ⟨_, d, b', by simp [Img.WF], by simp [Img.WF], rfl, h1, h2, by rw [h3]⟩

/-! ## Examples -/

/-- Out-of-range and in-between values meet the hypotheses of the round trip. -/
example : ∃ d b', writeRGB float32 goodLib ⟨⟨1, 1, [(.val (1 / 3), .val 7, .val (-2))]⟩, ⟨0, 0, []⟩, .linear, 1, 16⟩ = .ok d ∧
    readRGB float32 goodLib d true = .ok b' ∧ b'.image.w = 1 := by
  obtain ⟨d, b', h1, h2, h3, _⟩ := C105_roundtrip_partial float32_exists goodLib goodLib_ok
    ⟨⟨1, 1, [(.val (1 / 3), .val 7, .val (-2))]⟩, ⟨0, 0, []⟩, .linear, 1, 16⟩ (Or.inr rfl) (by simp [NoNaN]) (by norm_num) (by norm_num) (by norm_num) (by norm_num)
    (by simp [Img.WF]) true
  exact ⟨d, b', h1, h2, h3⟩

/-- Levels 1, 128 and 254 of 255 come back exactly. -/
example : ∃ d b', writeRGB float32 goodLib ⟨⟨1, 1, [(.val (float32 (1 / 255)), .val (float32 (128 / 255)), .val (float32 (254 / 255)))]⟩, ⟨0, 0, []⟩, .sRGB, 1, 8⟩ = .ok d ∧
    readRGB float32 goodLib d true = .ok b' ∧ b'.image.data = [(.val (float32 (1 / 255)), .val (float32 (128 / 255)), .val (float32 (254 / 255)))] := by
  obtain ⟨d, b', h1, h2, h3⟩ := C105_exact_partial float32_exists goodLib goodLib_ok
    ⟨⟨1, 1, [(.val (float32 (1 / 255)), .val (float32 (128 / 255)), .val (float32 (254 / 255)))]⟩, ⟨0, 0, []⟩, .sRGB, 1, 8⟩ (Or.inl rfl)
    (by
      intro p hp
      simp only [List.mem_singleton] at hp
      subst hp
      exact ⟨⟨1, by norm_num [steps], by norm_num [steps]⟩, ⟨128, by norm_num [steps], by norm_num [steps]⟩, ⟨254, by norm_num [steps], by norm_num [steps]⟩⟩)
    (by norm_num) (by norm_num) (by norm_num) (by norm_num) (by simp [Img.WF]) true
  exact ⟨d, b', h1, h2, by rw [h3]⟩

/-- A 3×2 MinIsWhite file with alpha, in planes, 16 bits, meets the hypotheses of `C105_read_partial`. -/
def whitePlanes : File := ⟨3, 2, 2, 16, 1, 0, false, [2], none, (2, 2), fun x y c => if c = 0 then 65535 else x + 3 * y, none, fun _ _ => true, fun _ _ _ => true⟩

example : ∃ b, readRGB float32 ⟨fun _ => some whitePlanes, fun _ => [], fun _ => .nan⟩ [] true = .ok b ∧
    b.image.data[1 * 3 + 2]? = some (.val 0, .val 0, .val 0) ∧ b.alpha.data[1 * 3 + 2]? = some (.val (float32 (5 / 65535))) := by
  have hp : Plain whitePlanes := by
    refine ⟨⟨by norm_num [whitePlanes], by norm_num [whitePlanes], Or.inl ⟨rfl, Or.inr (Or.inl rfl)⟩, ⟨by decide, by decide⟩, by norm_num [whitePlanes], ?_, by simp [whitePlanes]⟩,
      Or.inl rfl, Or.inr (Or.inr rfl), rfl⟩
    intro x y c hx hy hc
    have hx' : x < 3 := hx
    have hy' : y < 2 := hy
    show (if c = 0 then 65535 else x + 3 * y) < 2 ^ 16
    split <;> omega
  have hft : Fits whitePlanes := ⟨by norm_num [whitePlanes], by norm_num [whitePlanes, scanlineSize, File.blocks, File.perPixel], by simp [whitePlanes]⟩
  obtain ⟨b, h1, h2, h3, h4, h5, h6, _⟩ := C105_read_partial float32_exists ⟨fun _ => some whitePlanes, fun _ => [], fun _ => .nan⟩ [] whitePlanes rfl hp hft
    ⟨fun _ _ => rfl, fun _ _ _ => rfl⟩ true
  refine ⟨b, h1, ?_, ?_⟩
  · have := h5 2 1 (by norm_num [whitePlanes]) (by norm_num [whitePlanes])
    have hw : whitePlanes.w = 3 := rfl
    rw [hw] at this
    rw [this]
    norm_num [whitePlanes, shown, value, invert, fl1 float32_exists, fl0 float32_exists]
  · have := (h6 (by simp [whitePlanes]) rfl).2.2.2 2 1 (by norm_num [whitePlanes]) (by norm_num [whitePlanes])
    have hw : whitePlanes.w = 3 := rfl
    rw [hw] at this
    rw [this]
    norm_num [whitePlanes, value, colours]

/-- A 1×1 file in one strip, eight bits, all samples 100 plus the channel number. -/
def one (spp photo : ℕ) (extra : List ℕ) (ok : Bool) : File :=
  ⟨1, 1, spp, 8, 1, photo, true, extra, none, (2, 2), fun _ _ c => 100 + c % 4, none, fun _ _ => ok, fun _ _ _ => true⟩

theorem one_basic (spp photo : ℕ) (extra : List ℕ) (ok : Bool) (hs : 0 < spp ∧ spp < 10) (hp : photo ≠ 3 ∧ photo ≠ 6) :
    Basic (one spp photo extra ok) ∧ Fits (one spp photo extra ok) := by
  refine ⟨⟨by norm_num [one], by norm_num [one], Or.inl ⟨rfl, Or.inl rfl⟩, hp, hs.1, ?_, by simp [one]⟩, by norm_num [one], ?_, by simp [one]⟩
  · intro x y c _ _ _
    show 100 + c % 4 < 2 ^ 8
    omega
  · have e : photo ≠ 6 := hp.2
    simp [one, scanlineSize, File.blocks, File.perPixel, e]; omega

/-- A file of five channels is refused; so is one whose only strip is damaged. -/
example (ra : Bool) : readRGB float32 ⟨fun _ => some (one 5 2 [] true), fun _ => [], fun _ => .nan⟩ [] ra = .throw :=
  (C105_channels float32_exists _ [] _ rfl (one_basic 5 2 [] true (by norm_num) (by norm_num)).1 (one_basic 5 2 [] true (by norm_num) (by norm_num)).2
    ⟨fun _ _ => rfl, fun _ _ _ => rfl⟩ ra (Or.inl ⟨rfl, by norm_num [one], by norm_num [one]⟩)).1

example (ra : Bool) : readRGB float32 ⟨fun _ => some (one 3 2 [] false), fun _ => [], fun _ => .nan⟩ [] ra = .throw :=
  (C105_strip_checked float32_exists _ [] _ rfl (one_basic 3 2 [] false (by norm_num) (by norm_num)).1 (one_basic 3 2 [] false (by norm_num) (by norm_num)).2
    rfl ra ⟨0, 0, by norm_num [one], rfl, by simp [one]⟩).1

/-- A CIE L*a*b* pixel is shown as red, green, blue; the alpha of a grey pixel as green. -/
example : ∃ b, readRGB float32 ⟨fun _ => some (one 3 8 [] true), fun _ => [], fun _ => .nan⟩ [] true = .ok b ∧
    b.image.data[0]? = some (.val (float32 (100 / 255)), .val (float32 (101 / 255)), .val (float32 (102 / 255))) := by
  obtain ⟨h1, h2⟩ := one_basic 3 8 [] true (by norm_num) (by norm_num)
  obtain ⟨b, k1, k2⟩ := C105_photometric float32_exists ⟨fun _ => some (one 3 8 [] true), fun _ => [], fun _ => .nan⟩ [] _ rfl h1 h2 ⟨fun _ _ => rfl, fun _ _ _ => rfl⟩
    (by norm_num [one]) rfl (Or.inl rfl) true
  refine ⟨b, k1, ?_⟩
  have := k2 0 0 (by norm_num [one]) (by norm_num [one])
  simp only [Nat.zero_mul, Nat.zero_add] at this
  rw [this]
  norm_num [one, value]

example : ∃ b, readRGB float32 ⟨fun _ => some (one 4 1 [2, 0, 0] true), fun _ => [], fun _ => .nan⟩ [] true = .ok b ∧
    b.image.data[0]? = some (.val (float32 (100 / 255)), .val (float32 (101 / 255)), .val (float32 (102 / 255))) ∧
    b.alpha.data[0]? = some (.val (float32 (103 / 255))) := by
  obtain ⟨h1, h2⟩ := one_basic 4 1 [2, 0, 0] true (by norm_num) (by norm_num)
  obtain ⟨b, k1, k2⟩ := C105_alpha_misplaced float32_exists ⟨fun _ => some (one 4 1 [2, 0, 0] true), fun _ => [], fun _ => .nan⟩ [] _ rfl h1 h2 ⟨fun _ _ => rfl, fun _ _ _ => rfl⟩
    rfl rfl rfl
  refine ⟨b, k1, ?_⟩
  have := k2 0 0 (by norm_num [one]) (by norm_num [one])
  simp only [Nat.zero_mul, Nat.zero_add] at this
  rw [this.1, this.2]
  norm_num [one, value]

/-- A palette file; and one too large. -/
def palette (w h : ℕ) : File :=
  ⟨w, h, 1, 8, 1, 3, true, [], none, (2, 2), fun _ _ _ => 0, some (fun x y c => if c = 0 then 255 else 0), fun _ _ => true, fun _ _ _ => true⟩

example : ∃ b, readRGB float32 ⟨fun _ => some (palette 2 2), fun _ => [], fun _ => .nan⟩ [] true = .ok b ∧
    b.image.data[3]? = some (.val 1, .val 0, .val 0) := by
  obtain ⟨b, k1, _, _, _, k2, _⟩ := C105_palette_partial float32_exists ⟨fun _ => some (palette 2 2), fun _ => [], fun _ => .nan⟩ [] (palette 2 2) rfl
    (by norm_num [palette]) (by norm_num [palette]) (by norm_num [palette]) rfl (Or.inl rfl) rfl _ rfl (by intro x y c; show (if c = 0 then 255 else 0) ≤ 255; split <;> norm_num) true
  refine ⟨b, k1, ?_⟩
  have := k2 1 1 (by norm_num [palette]) (by norm_num [palette])
  have hw : (palette 2 2).w = 2 := rfl
  rw [hw] at this
  rw [this]
  norm_num [fl1 float32_exists, fl0 float32_exists]

example : readRGB float32 ⟨fun _ => some (palette 65536 65536), fun _ => [], fun _ => .nan⟩ [] true = .ub :=
  C105_overflow float32 _ [] (palette 65536 65536) rfl (by norm_num [palette]) (by norm_num [palette]) (by norm_num [palette]) (by norm_num [palette])
    (by norm_num [palette]) rfl rfl rfl (by simp [palette]) true

end Huira.ImageIO.Tiff
