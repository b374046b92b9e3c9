import Verif.ImageIO.Tiff
import Verif.ImageIO.PngWrite
/-!
# TIFF: what is read (C105)
-/
set_option linter.unusedSimpArgs false
set_option linter.unusedVariables false
namespace Huira.ImageIO.Tiff
open Huira.Num Huira.ImageIO Huira.ImageIO.Convert
open Huira.ImageIO.Png (FV Img Bundle Hint pixelAt grid_get grid_length mapRes_choose img_get clamp01_eq)

/-! ## Specification -/

/-- Number of colour samples of a photometric interpretation (TIFF 6.0). -/
def colours (photo : Nat) : Nat := if photo = 2 then 3 else 1

/-- A non-empty file of a supported sample format whose samples are stored as they are (no palette, no YCbCr blocks). -/
structure Basic (f : File) : Prop where
  w_pos : 0 < f.w
  h_pos : 0 < f.h
  form : (f.fmt = 1 ∧ (f.bps = 8 ∨ f.bps = 16 ∨ f.bps = 32)) ∨ (f.fmt = 3 ∧ f.bps = 32)
  plain : f.photo ≠ 3 ∧ f.photo ≠ 6
  spp_pos : 0 < f.spp
  samples : ∀ x y c, x < f.w → y < f.h → c < f.spp → f.sample x y c < 2 ^ f.bps
  tile : ∀ tw th, f.tile = some (tw, th) → 0 < tw ∧ 0 < th

/-- A grey or RGB file of a supported sample format, with at most one extra sample, which is an alpha channel. -/
structure Plain (f : File) : Prop extends Basic f where
  photo : f.photo = 0 ∨ f.photo = 1 ∨ f.photo = 2
  extra : f.extra = [] ∨ f.extra = [1] ∨ f.extra = [2]
  spp : f.spp = colours f.photo + f.extra.length

/-- Every row or tile can be decoded. -/
def Readable (f : File) : Prop := (∀ y s, f.rowOk y s = true) ∧ ∀ x y s, f.tileOk x y s = true

/-- Sizes for which `int` suffices: pixels, and bytes of a row or tile buffer. -/
def Fits (f : File) : Prop := f.w * f.h < 2147483648 ∧ scanlineSize f < 2147483648 ∧
  ∀ tw th, f.tile = some (tw, th) → tw < 2147483648 ∧ th < 2147483648 ∧ tileSize f tw th < 2147483648

/-- The value a stored sample stands for: a fraction of the full range, or the `float` itself. -/
def value (fl : ℚ → ℚ) (lib : Lib) (f : File) (v : Nat) : FV :=
  if f.fmt = 3 then lib.asFloat v else .val (fl ((v : ℚ) / (2 ^ f.bps - 1)))

/-- The colour value shown: MinIsWhite files store one minus the value. -/
def shown (fl : ℚ → ℚ) (lib : Lib) (f : File) (x y c : Nat) : FV :=
  if f.photo = 0 then invert fl (value fl lib f (f.sample x y c)) else value fl lib f (f.sample x y c)

/-! ## Loops that write the right value -/

theorem foldRes_target {σ α κ V : Type} (step : σ → α → Res σ) (get : σ → κ → V) (target : κ → V) (K : α → κ → Prop) :
    ∀ (l : List α) (s : σ),
      (∀ a ∈ l, ∀ s, ∃ s', step s a = .ok s' ∧ (∀ k, K a k → get s' k = target k) ∧ ∀ k, get s k = target k → get s' k = target k) →
      ∃ s', foldRes step l s = .ok s' ∧ ∀ k, (get s k = target k ∨ ∃ a ∈ l, K a k) → get s' k = target k
  | [], s, _ => ⟨s, rfl, fun k h => by rcases h with h | ⟨a, h, _⟩; exact h; simp at h⟩
  | a :: l, s, h => by
    obtain ⟨s1, h1, h2, h3⟩ := h a (List.mem_cons_self ..) s
    obtain ⟨s2, h4, h5⟩ := foldRes_target step get target K l s1 (fun b hb => h b (List.mem_cons_of_mem _ hb))
    refine ⟨s2, by unfold foldRes; rw [h1, Res.ok_bind, h4], ?_⟩
    intro k hk
    apply h5
    rcases hk with hk | ⟨b, hb, hk⟩
    · left; exact h3 k hk
    · rcases List.mem_cons.1 hb with rfl | hb
      · left; exact h2 k hk
      · right; exact ⟨b, hb, hk⟩

theorem mem_cells (rows cols n : Nat) (q : Nat × Nat × Nat) : q ∈ cells rows cols n ↔ q.1 < rows ∧ q.2.1 < cols ∧ q.2.2 < n := by
  obtain ⟨r, c, ch⟩ := q
  unfold cells
  simp only [List.mem_flatMap, List.mem_range, List.mem_map, Prod.mk.injEq]
  constructor
  · rintro ⟨r', h1, c', h2, ch', h3, rfl, rfl, rfl⟩; exact ⟨h1, h2, h3⟩
  · rintro ⟨h1, h2, h3⟩; exact ⟨r, h1, c, h2, ch, h3, rfl, rfl, rfl⟩

theorem mem_corners (xs ys : List Nat) (p : Nat × Nat) : p ∈ corners xs ys ↔ p.1 ∈ xs ∧ p.2 ∈ ys := by
  obtain ⟨x, y⟩ := p
  unfold corners
  simp only [List.mem_flatMap, List.mem_map, Prod.mk.injEq]
  constructor
  · rintro ⟨y', h1, x', h2, rfl, rfl⟩; exact ⟨h2, h1⟩
  · rintro ⟨h1, h2⟩; exact ⟨y, h2, x, h1, rfl, rfl⟩

/-- Without wrapping, the loop variable takes exactly the multiples of the step. -/
theorem starts_ok (n step : Nat) (hs : 0 < step) (hn : n < 2147483648) (hst : step < 2147483648) :
    ∀ (fuel t : Nat), 0 < fuel → n < fuel + t → step ∣ t → ∃ l, starts n step fuel t = .ok l ∧ ∀ u, u ∈ l ↔ t ≤ u ∧ u < n ∧ step ∣ u
  | 0, t, h0, h, hd => by omega
  | fuel + 1, t, h0, h, hd => by
    unfold starts
    by_cases ht : t < n
    · rw [if_pos ht, Nat.mod_eq_of_lt (by omega)]
      obtain ⟨l, h1, h2⟩ := starts_ok n step hs hn hst fuel (t + step) (by omega) (by omega) (Dvd.dvd.add hd (dvd_refl _))
      refine ⟨t :: l, by rw [h1, Res.ok_bind], ?_⟩
      intro u
      rw [List.mem_cons, h2]
      constructor
      · rintro (rfl | ⟨a, b, c⟩)
        · exact ⟨le_refl _, ht, hd⟩
        · exact ⟨by omega, b, c⟩
      · rintro ⟨a, b, c⟩
        rcases Nat.eq_or_lt_of_le a with e | e
        · left; exact e.symm
        · right
          refine ⟨?_, b, c⟩
          obtain ⟨i, rfl⟩ := hd
          obtain ⟨j, rfl⟩ := c
          have : i < j := Nat.lt_of_mul_lt_mul_left e
          calc step * i + step = step * (i + 1) := by ring
            _ ≤ step * j := Nat.mul_le_mul_left _ this
    · rw [if_neg ht]
      refine ⟨[], rfl, fun u => ?_⟩
      simp; omega

/-! ## Buffers -/

theorem bufAt_ok (buf : List Nat) (off k v : Nat) (h : buf[off + k]? = some v) (hs : off + k < 2147483648) : bufAt buf off k = .ok v := by
  have e : s32 (off % 4294967296) = off := by
    unfold s32; rw [Nat.mod_eq_of_lt (by omega), if_pos (by omega)]
  unfold bufAt
  simp only [e]
  rw [if_neg (by omega), show ((off : Int) + (k : Int)).toNat = off + k by omega, h]

theorem rep_nat (n : Nat) (h : n ≤ 2 ^ 24) : Representable (n : ℚ) := by
  have := representable_int (n : ℤ) (by rw [abs_of_nonneg (by positivity)]; exact_mod_cast h)
  exact_mod_cast this

/-- A buffer holding the bytes of a sample gives its value. -/
theorem sample_ok {fl : ℚ → ℚ} (hfl : IsRounding fl) (lib : Lib) (f : File)
    (hf : (f.fmt = 1 ∧ (f.bps = 8 ∨ f.bps = 16 ∨ f.bps = 32)) ∨ (f.fmt = 3 ∧ f.bps = 32)) (buf : List Nat) (off v : Nat)
    (hv : v < 2 ^ f.bps) (hb : ∀ j : Nat, j < f.bps / 8 → buf[off + j]? = some (byteOf v j)) (hs : off + f.bps / 8 ≤ 2147483648) :
    sampleToFloat fl lib (decide (f.fmt = 3)) f.bps buf off = .ok (value fl lib f v) := by
  have four : f.bps = 32 → byteOf v 0 + 256 * byteOf v 1 + 65536 * byteOf v 2 + 16777216 * byteOf v 3 = v := by
    intro h
    rw [h] at hv
    simp only [byteOf]; norm_num at hv ⊢; omega
  have get4 : f.bps = 32 → bufAt buf off 0 = .ok (byteOf v 0) ∧ bufAt buf off 1 = .ok (byteOf v 1) ∧
      bufAt buf off 2 = .ok (byteOf v 2) ∧ bufAt buf off 3 = .ok (byteOf v 3) := by
    intro h
    rw [h] at hb hs
    exact ⟨bufAt_ok _ _ _ _ (hb 0 (by omega)) (by omega), bufAt_ok _ _ _ _ (hb 1 (by omega)) (by omega),
      bufAt_ok _ _ _ _ (hb 2 (by omega)) (by omega), bufAt_ok _ _ _ _ (hb 3 (by omega)) (by omega)⟩
  unfold sampleToFloat value
  rcases hf with ⟨h1, h2 | h2 | h2⟩ | ⟨h1, h2⟩
  · rw [h2] at hb hs hv
    have g0 := bufAt_ok _ _ _ _ (hb 0 (by omega)) (by omega)
    have e : byteOf v 0 = v := by simp only [byteOf]; norm_num at hv ⊢; omega
    simp only [h1, h2, g0, Res.ok_bind, e]
    norm_num
    rw [hfl.exact (rep_nat v (by norm_num at hv ⊢; omega))]
  · rw [h2] at hb hs hv
    have g0 := bufAt_ok _ _ _ _ (hb 0 (by omega)) (by omega)
    have g1 := bufAt_ok _ _ _ _ (hb 1 (by omega)) (by omega)
    have e : byteOf v 0 + 256 * byteOf v 1 = v := by simp only [byteOf]; norm_num at hv ⊢; omega
    simp only [h1, h2, g0, g1, Res.ok_bind, e]
    norm_num
    rw [hfl.exact (rep_nat v (by norm_num at hv ⊢; omega))]
  · obtain ⟨g0, g1, g2, g3⟩ := get4 h2
    simp only [h1, h2, g0, g1, g2, g3, Res.ok_bind, four h2]
    norm_num
  · obtain ⟨g0, g1, g2, g3⟩ := get4 h2
    simp only [h1, h2, g0, g1, g2, g3, Res.ok_bind, four h2]
    norm_num

theorem bytes_cases (f : File)
    (hf : (f.fmt = 1 ∧ (f.bps = 8 ∨ f.bps = 16 ∨ f.bps = 32)) ∨ (f.fmt = 3 ∧ f.bps = 32)) : 0 < f.bps / 8 ∧ f.bps = f.bps / 8 * 8 := by
  omega

/-- Index arithmetic of interleaved samples. -/
theorem idx_split (q n c b j : Nat) (hc : c < n) (hj : j < b) :
    ((q * n + c) * b + j) / b = q * n + c ∧ ((q * n + c) * b + j) % b = j ∧ (q * n + c) / n = q ∧ (q * n + c) % n = c := by
  have hb : 0 < b := by omega
  have hn : 0 < n := by omega
  refine ⟨?_, ?_, ?_, ?_⟩
  · rw [Nat.mul_comm, Nat.mul_add_div hb, Nat.div_eq_of_lt hj, Nat.add_zero]
  · rw [Nat.mul_comm, Nat.mul_add_mod, Nat.mod_eq_of_lt hj]
  · rw [Nat.mul_comm, Nat.mul_add_div hn, Nat.div_eq_of_lt hc, Nat.add_zero]
  · rw [Nat.mul_comm, Nat.mul_add_mod, Nat.mod_eq_of_lt hc]

theorem idx_lt (m n b q c j : Nat) (hq : q < m) (hc : c < n) (hj : j < b) : (q * n + c) * b + j < m * n * b := by
  have h1 : q * n + c + 1 ≤ m * n := by
    calc q * n + c + 1 ≤ q * n + n := by omega
      _ = (q + 1) * n := by ring
      _ ≤ m * n := Nat.mul_le_mul_right _ hq
  calc (q * n + c) * b + j < (q * n + c) * b + b := by omega
    _ = (q * n + c + 1) * b := by ring
    _ ≤ m * n * b := Nat.mul_le_mul_right _ h1

theorem not_blocks (f : File) (h : Basic f) : f.blocks = false := by
  unfold File.blocks
  simp [h.plain.2]

theorem size_eq (m n bps : Nat) (b : Nat) (hb : bps = b * 8) : (m * n * bps + 7) / 8 = m * n * b := by
  rw [hb, ← Nat.mul_assoc]; omega

theorem rowSize (f : File) (h : Basic f) : scanlineSize f = f.w * f.perPixel * (f.bps / 8) := by
  unfold scanlineSize
  rw [not_blocks f h]
  simp only [Bool.false_eq_true, if_false]
  exact size_eq _ _ _ _ (bytes_cases f h.form).2

theorem tileSize_eq (f : File) (h : Basic f) (tw th : Nat) : tileSize f tw th = tw * f.perPixel * (f.bps / 8) * th := by
  unfold tileSize
  rw [not_blocks f h]
  simp only [Bool.false_eq_true, if_false]
  rw [size_eq _ _ _ _ (bytes_cases f h.form).2]

theorem perPixel_pos (f : File) (h : Basic f) : 0 < f.perPixel := by
  unfold File.perPixel
  have := h.spp_pos
  split <;> omega

/-- The bytes of a sample in a row buffer. -/
theorem row_byte (f : File) (h : Basic f) (x y s c j : Nat) (hx : x < f.w) (hc : c < f.perPixel) (hj : j < f.bps / 8) :
    (rowBuf f y s)[(x * f.perPixel + c) * (f.bps / 8) + j]? = some (byteOf (f.sample x y (if f.contig then c else s)) j) := by
  unfold rowBuf
  obtain ⟨h1, h2, h3, h4⟩ := idx_split x f.perPixel c (f.bps / 8) j hc hj
  rw [List.getElem?_map, List.getElem?_range (by rw [rowSize f h]; exact idx_lt _ _ _ _ _ _ hx hc hj)]
  simp only [Option.map_some, h1, h2, h3, chanOf, h4]

/-- The bytes of a sample in a tile buffer. -/
theorem tile_byte (f : File) (h : Basic f) (tw th tx ty s row col c j : Nat) (hr : row < th) (hcol : col < tw) (hc : c < f.perPixel)
    (hj : j < f.bps / 8) : (tileBuf f tw th tx ty s)[((row * tw + col) * f.perPixel + c) * (f.bps / 8) + j]? =
      some (byteOf (f.sample (tx + col) (ty + row) (if f.contig then c else s)) j) := by
  unfold tileBuf
  obtain ⟨h1, h2, h3, h4⟩ := idx_split (row * tw + col) f.perPixel c (f.bps / 8) j hc hj
  have hq : row * tw + col < tw * th := by
    have := idx_lt th tw 1 row col 0 hr hcol (by omega)
    rw [Nat.mul_comm tw th]; omega
  have h5 : (row * tw + col) / tw = row := by rw [Nat.mul_comm, Nat.mul_add_div (by omega), Nat.div_eq_of_lt hcol, Nat.add_zero]
  have h6 : (row * tw + col) % tw = col := by rw [Nat.mul_comm, Nat.mul_add_mod, Nat.mod_eq_of_lt hcol]
  rw [List.getElem?_map, List.getElem?_range (by
    rw [tileSize_eq f h]
    have := idx_lt (tw * th) f.perPixel (f.bps / 8) (row * tw + col) c j hq hc hj
    calc _ < tw * th * f.perPixel * (f.bps / 8) := this
      _ = tw * f.perPixel * (f.bps / 8) * th := by ring)]
  simp only [Option.map_some, h1, h2, h3, chanOf, h4, h5, h6]

/-! ## The loops -/

/-- What channel `k.1`, pixel `k.2` must hold. -/
def target (fl : ℚ → ℚ) (lib : Lib) (f : File) (k : Nat × Nat) : FV := value fl lib f (f.sample (k.2 % f.w) (k.2 / f.w) k.1)

theorem dst_split (w x y : Nat) (hx : x < w) : (y * w + x) % w = x ∧ (y * w + x) / w = y := by
  constructor
  · rw [Nat.mul_comm, Nat.mul_add_mod, Nat.mod_eq_of_lt hx]
  · rw [Nat.mul_comm, Nat.mul_add_div (by omega), Nat.div_eq_of_lt hx, Nat.add_zero]

theorem dst_lt (w h x y : Nat) (hx : x < w) (hy : y < h) : y * w + x < w * h := by
  have := idx_lt h w 1 y x 0 hy hx (by omega)
  rw [Nat.mul_comm w h]; omega

/-- One write of the right value. -/
theorem put_target {fl : ℚ → ℚ} (lib : Lib) (f : File) (st : Store) (ch x y : Nat) (hc : ch < f.spp) (hx : x < f.w) (hy : y < f.h)
    (v : Res FV) (hv : v = .ok (value fl lib f (f.sample x y ch))) :
    ∃ s', (do let u ← v; put f.spp (f.w * f.h) st (ch, y * f.w + x) u) = .ok s' ∧
      (∀ k, k = (ch, y * f.w + x) → s' k = target fl lib f k) ∧ ∀ k, st k = target fl lib f k → s' k = target fl lib f k := by
  obtain ⟨e1, e2⟩ := dst_split f.w x y hx
  have ht : target fl lib f (ch, y * f.w + x) = value fl lib f (f.sample x y ch) := by simp only [target, e1, e2]
  refine ⟨_, by rw [hv, Res.ok_bind]; unfold put; rw [if_pos ⟨hc, dst_lt _ _ _ _ hx hy⟩], ?_, ?_⟩
  · rintro k rfl; simp only [if_true, ht]
  · intro k hk
    by_cases e : k = (ch, y * f.w + x)
    · subst e; simp only [if_true, ht]
    · simp only [if_neg e, hk]

theorem row_sample {fl : ℚ → ℚ} (hfl : IsRounding fl) (lib : Lib) (f : File) (h : Basic f) (hft : Fits f) (x y s c : Nat)
    (hx : x < f.w) (hy : y < f.h) (hc : c < f.perPixel) (hs : (if f.contig then c else s) < f.spp) :
    sampleToFloat fl lib (decide (f.fmt = 3)) f.bps (rowBuf f y s) ((x * f.perPixel + c) * (f.bps / 8)) =
      .ok (value fl lib f (f.sample x y (if f.contig then c else s))) := by
  have hb := bytes_cases f h.form
  apply sample_ok hfl lib f h.form
  · exact h.samples x y _ hx hy hs
  · intro j hj
    exact row_byte f h x y s c j hx hc hj
  · have h1 := hft.2.1
    have h2 := idx_lt f.w f.perPixel (f.bps / 8) x c (f.bps / 8 - 1) hx hc (by omega)
    rw [rowSize f h] at h1
    omega

theorem tile_sample {fl : ℚ → ℚ} (hfl : IsRounding fl) (lib : Lib) (f : File) (h : Basic f) (tw th : Nat) (hsz : tileSize f tw th < 2147483648)
    (tx ty s row col c : Nat) (hr : row < th) (hcol : col < tw) (hx : tx + col < f.w) (hy : ty + row < f.h) (hc : c < f.perPixel)
    (hs : (if f.contig then c else s) < f.spp) :
    sampleToFloat fl lib (decide (f.fmt = 3)) f.bps (tileBuf f tw th tx ty s) (((row * tw + col) * f.perPixel + c) * (f.bps / 8)) =
      .ok (value fl lib f (f.sample (tx + col) (ty + row) (if f.contig then c else s))) := by
  have hb := bytes_cases f h.form
  apply sample_ok hfl lib f h.form
  · exact h.samples _ _ _ hx hy hs
  · intro j hj
    exact tile_byte f h tw th tx ty s row col c j hr hcol hc hj
  · have hq : row * tw + col < tw * th := dst_lt tw th col row hcol hr
    have h2 := idx_lt (tw * th) f.perPixel (f.bps / 8) (row * tw + col) c (f.bps / 8 - 1) hq hc (by omega)
    rw [tileSize_eq f h] at hsz
    have e : tw * th * f.perPixel * (f.bps / 8) = tw * f.perPixel * (f.bps / 8) * th := by ring
    omega

theorem rowContig_ok {fl : ℚ → ℚ} (hfl : IsRounding fl) (lib : Lib) (f : File) (h : Basic f) (hft : Fits f) (hct : f.contig = true)
    (y : Nat) (hy : y < f.h) (hok : f.rowOk y 0 = true) (st : Store) :
    ∃ s', rowContig ⟨fl, lib, f, decide (f.fmt = 3), f.bps / 8⟩ st y = .ok s' ∧
      (∀ k : Nat × Nat, (k.1 < f.spp ∧ ∃ x, x < f.w ∧ k.2 = y * f.w + x) → s' k = target fl lib f k) ∧
      ∀ k, st k = target fl lib f k → s' k = target fl lib f k := by
  have hpp : f.perPixel = f.spp := by simp [File.perPixel, hct]
  unfold rowContig
  simp only [hok, if_true]
  obtain ⟨s', h1, h2⟩ := foldRes_target (κ := Nat × Nat) (V := FV) (fun st (q : Nat × Nat × Nat) => do
      let v ← sampleToFloat fl lib (decide (f.fmt = 3)) f.bps (rowBuf f y 0) (q.2.1 * f.spp * (f.bps / 8) + q.2.2 * (f.bps / 8))
      put f.spp (f.w * f.h) st (q.2.2, y * f.w + q.2.1) v) (fun s => s) (target fl lib f) (fun q k => k = (q.2.2, y * f.w + q.2.1))
      (cells 1 f.w f.spp) st (by
    intro q hq s
    obtain ⟨_, q2, q3⟩ := (mem_cells _ _ _ _).1 hq
    apply put_target lib f s q.2.2 q.2.1 y q3 q2 hy
    have := row_sample hfl lib f h hft q.2.1 y 0 q.2.2 q2 hy (by rw [hpp]; exact q3) (by rw [hct]; exact q3)
    rw [hpp, Nat.add_mul, hct] at this
    exact this)
  refine ⟨s', h1, ?_, fun k hk => h2 k (Or.inl hk)⟩
  rintro ⟨k1, k2⟩ ⟨hk, x, hx, rfl⟩
  exact h2 _ (Or.inr ⟨(0, x, k1), (mem_cells _ _ _ _).2 ⟨by norm_num, hx, hk⟩, rfl⟩)

theorem rowSeparate_ok {fl : ℚ → ℚ} (hfl : IsRounding fl) (lib : Lib) (f : File) (h : Basic f) (hft : Fits f) (hct : f.contig = false)
    (ch y : Nat) (hch : ch < f.spp) (hy : y < f.h) (hok : f.rowOk y ch = true) (st : Store) :
    ∃ s', rowSeparate ⟨fl, lib, f, decide (f.fmt = 3), f.bps / 8⟩ st (ch, y) = .ok s' ∧
      (∀ k : Nat × Nat, (k.1 = ch ∧ ∃ x, x < f.w ∧ k.2 = y * f.w + x) → s' k = target fl lib f k) ∧
      ∀ k, st k = target fl lib f k → s' k = target fl lib f k := by
  have hpp : f.perPixel = 1 := by simp [File.perPixel, hct]
  unfold rowSeparate
  simp only [hok, if_true]
  obtain ⟨s', h1, h2⟩ := foldRes_target (κ := Nat × Nat) (V := FV) (fun st (q : Nat × Nat × Nat) => do
      let v ← sampleToFloat fl lib (decide (f.fmt = 3)) f.bps (rowBuf f y ch) (q.2.1 * (f.bps / 8))
      put f.spp (f.w * f.h) st (ch, y * f.w + q.2.1) v) (fun s => s) (target fl lib f) (fun q k => k = (ch, y * f.w + q.2.1))
      (cells 1 f.w 1) st (by
    intro q hq s
    obtain ⟨_, q2, q3⟩ := (mem_cells _ _ _ _).1 hq
    apply put_target lib f s ch q.2.1 y hch q2 hy
    have := row_sample hfl lib f h hft q.2.1 y ch 0 q2 hy (by rw [hpp]; norm_num) (by rw [hct]; exact hch)
    rw [hpp, Nat.mul_one, Nat.add_zero, hct] at this
    exact this)
  refine ⟨s', h1, ?_, fun k hk => h2 k (Or.inl hk)⟩
  rintro ⟨k1, k2⟩ ⟨rfl, x, hx, rfl⟩
  exact h2 _ (Or.inr ⟨(0, x, 0), (mem_cells _ _ _ _).2 ⟨by norm_num, hx, by norm_num⟩, rfl⟩)

theorem stripped_ok {fl : ℚ → ℚ} (hfl : IsRounding fl) (lib : Lib) (f : File) (h : Basic f) (hft : Fits f) (hok : Readable f) (st : Store) :
    ∃ s', readStripped ⟨fl, lib, f, decide (f.fmt = 3), f.bps / 8⟩ st = .ok s' ∧
      ∀ ch x y, ch < f.spp → x < f.w → y < f.h → s' (ch, y * f.w + x) = value fl lib f (f.sample x y ch) := by
  have fin : ∀ (s' : Store) ch x y, x < f.w → s' (ch, y * f.w + x) = target fl lib f (ch, y * f.w + x) →
      s' (ch, y * f.w + x) = value fl lib f (f.sample x y ch) := by
    intro s' ch x y hx e
    obtain ⟨e1, e2⟩ := dst_split f.w x y hx
    rw [e]; simp only [target, e1, e2]
  cases hct : f.contig with
  | true =>
    obtain ⟨s', h1, h2⟩ := foldRes_target (rowContig ⟨fl, lib, f, decide (f.fmt = 3), f.bps / 8⟩) (fun s => s) (target fl lib f)
      (fun y (k : Nat × Nat) => k.1 < f.spp ∧ ∃ x, x < f.w ∧ k.2 = y * f.w + x) (List.range f.h) st
      (fun y hy s => rowContig_ok hfl lib f h hft hct y (List.mem_range.1 hy) (hok.1 y 0) s)
    refine ⟨s', by unfold readStripped; simp only [hct, if_true]; exact h1, ?_⟩
    intro ch x y hc hx hy
    exact fin s' ch x y hx (h2 _ (Or.inr ⟨y, List.mem_range.2 hy, hc, x, hx, rfl⟩))
  | false =>
    obtain ⟨s', h1, h2⟩ := foldRes_target (rowSeparate ⟨fl, lib, f, decide (f.fmt = 3), f.bps / 8⟩) (fun s => s) (target fl lib f)
      (fun p (k : Nat × Nat) => k.1 = p.1 ∧ ∃ x, x < f.w ∧ k.2 = p.2 * f.w + x)
      ((List.range f.spp).flatMap fun ch => (List.range f.h).map fun y => (ch, y)) st (by
      intro p hp s
      simp only [List.mem_flatMap, List.mem_range, List.mem_map] at hp
      obtain ⟨ch, hch, y, hy, rfl⟩ := hp
      exact rowSeparate_ok hfl lib f h hft hct ch y hch hy (hok.1 y ch) s)
    refine ⟨s', by unfold readStripped; simp only [hct, Bool.false_eq_true, if_false]; exact h1, ?_⟩
    intro ch x y hc hx hy
    refine fin s' ch x y hx (h2 _ (Or.inr ⟨(ch, y), ?_, rfl, x, hx, rfl⟩))
    simp only [List.mem_flatMap, List.mem_range, List.mem_map]
    exact ⟨ch, hc, y, hy, rfl⟩

theorem tileContig_ok {fl : ℚ → ℚ} (hfl : IsRounding fl) (lib : Lib) (f : File) (h : Basic f) (hct : f.contig = true) (tw th : Nat)
    (hsz : tileSize f tw th < 2147483648) (tx ty : Nat) (hok : f.tileOk tx ty 0 = true) (s : List Nat × Store) :
    ∃ s', tileContig ⟨fl, lib, f, decide (f.fmt = 3), f.bps / 8⟩ tw th s (tx, ty) = .ok s' ∧
      (∀ k : Nat × Nat, (k.1 < f.spp ∧ ∃ c r, c < tw ∧ r < th ∧ tx + c < f.w ∧ ty + r < f.h ∧ k.2 = (ty + r) * f.w + (tx + c)) → s'.2 k = target fl lib f k) ∧
      ∀ k, s.2 k = target fl lib f k → s'.2 k = target fl lib f k := by
  have hpp : f.perPixel = f.spp := by simp [File.perPixel, hct]
  unfold tileContig
  simp only [hok, if_true]
  obtain ⟨s', h1, h2⟩ := foldRes_target (κ := Nat × Nat) (V := FV) (fun st (q : Nat × Nat × Nat) => do
      let v ← sampleToFloat fl lib (decide (f.fmt = 3)) f.bps (tileBuf f tw th tx ty 0) ((q.1 * tw + q.2.1) * f.spp * (f.bps / 8) + q.2.2 * (f.bps / 8))
      put f.spp (f.w * f.h) st (q.2.2, (ty + q.1) * f.w + (tx + q.2.1)) v) (fun s => s) (target fl lib f)
      (fun q k => k = (q.2.2, (ty + q.1) * f.w + (tx + q.2.1)))
      (cells (min th (f.h - ty)) (min tw (f.w - tx)) f.spp) s.2 (by
    intro q hq st
    obtain ⟨q1, q2, q3⟩ := (mem_cells _ _ _ _).1 hq
    apply put_target lib f st q.2.2 (tx + q.2.1) (ty + q.1) q3 (by omega) (by omega)
    have := tile_sample hfl lib f h tw th hsz tx ty 0 q.1 q.2.1 q.2.2 (by omega) (by omega) (by omega) (by omega) (by rw [hpp]; exact q3) (by rw [hct]; exact q3)
    rw [hpp, Nat.add_mul, hct] at this
    exact this)
  refine ⟨_, by rw [h1, Res.ok_bind], ?_, fun k hk => h2 k (Or.inl hk)⟩
  rintro ⟨k1, k2⟩ ⟨hk, c, r, hc, hr, hx, hy, rfl⟩
  exact h2 _ (Or.inr ⟨(r, c, k1), (mem_cells _ _ _ _).2 ⟨by show r < _; omega, by show c < _; omega, hk⟩, rfl⟩)

theorem tileSeparate_ok {fl : ℚ → ℚ} (hfl : IsRounding fl) (lib : Lib) (f : File) (h : Basic f) (hct : f.contig = false) (tw th : Nat)
    (hsz : tileSize f tw th < 2147483648) (ch tx ty : Nat) (hch : ch < f.spp) (hok : f.tileOk tx ty ch = true) (s : List Nat × Store) :
    ∃ s', tileSeparate ⟨fl, lib, f, decide (f.fmt = 3), f.bps / 8⟩ tw th s (ch, tx, ty) = .ok s' ∧
      (∀ k : Nat × Nat, (k.1 = ch ∧ ∃ c r, c < tw ∧ r < th ∧ tx + c < f.w ∧ ty + r < f.h ∧ k.2 = (ty + r) * f.w + (tx + c)) → s'.2 k = target fl lib f k) ∧
      ∀ k, s.2 k = target fl lib f k → s'.2 k = target fl lib f k := by
  have hpp : f.perPixel = 1 := by simp [File.perPixel, hct]
  unfold tileSeparate
  simp only [hok, if_true]
  obtain ⟨s', h1, h2⟩ := foldRes_target (κ := Nat × Nat) (V := FV) (fun st (q : Nat × Nat × Nat) => do
      let v ← sampleToFloat fl lib (decide (f.fmt = 3)) f.bps (tileBuf f tw th tx ty ch) ((q.1 * tw + q.2.1) * (f.bps / 8))
      put f.spp (f.w * f.h) st (ch, (ty + q.1) * f.w + (tx + q.2.1)) v) (fun s => s) (target fl lib f)
      (fun q k => k = (ch, (ty + q.1) * f.w + (tx + q.2.1)))
      (cells (min th (f.h - ty)) (min tw (f.w - tx)) 1) s.2 (by
    intro q hq st
    obtain ⟨q1, q2, q3⟩ := (mem_cells _ _ _ _).1 hq
    apply put_target lib f st ch (tx + q.2.1) (ty + q.1) hch (by omega) (by omega)
    have := tile_sample hfl lib f h tw th hsz tx ty ch q.1 q.2.1 0 (by omega) (by omega) (by omega) (by omega) (by rw [hpp]; norm_num) (by rw [hct]; exact hch)
    rw [hpp, Nat.mul_one, Nat.add_zero, hct] at this
    exact this)
  refine ⟨_, by rw [h1, Res.ok_bind], ?_, fun k hk => h2 k (Or.inl hk)⟩
  rintro ⟨k1, k2⟩ ⟨rfl, c, r, hc, hr, hx, hy, rfl⟩
  exact h2 _ (Or.inr ⟨(r, c, 0), (mem_cells _ _ _ _).2 ⟨by show r < _; omega, by show c < _; omega, by norm_num⟩, rfl⟩)

theorem tiled_ok {fl : ℚ → ℚ} (hfl : IsRounding fl) (lib : Lib) (f : File) (h : Basic f) (hft : Fits f) (hok : Readable f) (tw th : Nat)
    (ht : f.tile = some (tw, th)) (st : Store) :
    ∃ s', readTiled ⟨fl, lib, f, decide (f.fmt = 3), f.bps / 8⟩ tw th st = .ok s' ∧
      ∀ ch x y, ch < f.spp → x < f.w → y < f.h → s' (ch, y * f.w + x) = value fl lib f (f.sample x y ch) := by
  obtain ⟨tw0, th0⟩ := h.tile tw th ht
  obtain ⟨tw1, th1, hsz⟩ := hft.2.2 tw th ht
  have hw := h.w_pos
  have hh := h.h_pos
  have hwb : f.w < 2147483648 := lt_of_le_of_lt (Nat.le_mul_of_pos_right _ hh) hft.1
  have hhb : f.h < 2147483648 := lt_of_le_of_lt (Nat.le_mul_of_pos_left _ hw) hft.1
  obtain ⟨xs, hxs, mx⟩ := starts_ok f.w tw tw0 hwb tw1 4294967297 0 (by norm_num) (by omega) (dvd_zero _)
  obtain ⟨ys, hys, my⟩ := starts_ok f.h th th0 hhb th1 4294967297 0 (by norm_num) (by omega) (dvd_zero _)
  have fin : ∀ (s' : Store) ch x y, x < f.w → s' (ch, y * f.w + x) = target fl lib f (ch, y * f.w + x) →
      s' (ch, y * f.w + x) = value fl lib f (f.sample x y ch) := by
    intro s' ch x y hx e
    obtain ⟨e1, e2⟩ := dst_split f.w x y hx
    rw [e]; simp only [target, e1, e2]
  -- the tile covering a pixel
  have cover : ∀ x y, x < f.w → y < f.h → (x / tw * tw, y / th * th) ∈ corners xs ys ∧
      ∃ c r, c < tw ∧ r < th ∧ x / tw * tw + c < f.w ∧ y / th * th + r < f.h ∧ y * f.w + x = (y / th * th + r) * f.w + (x / tw * tw + c) := by
    intro x y hx hy
    have ex : x / tw * tw + x % tw = x := by rw [Nat.mul_comm]; exact Nat.div_add_mod x tw
    have ey : y / th * th + y % th = y := by rw [Nat.mul_comm]; exact Nat.div_add_mod y th
    refine ⟨(mem_corners _ _ _).2 ⟨(mx _).2 ⟨Nat.zero_le _, by omega, dvd_mul_left _ _⟩, (my _).2 ⟨Nat.zero_le _, by omega, dvd_mul_left _ _⟩⟩, ?_⟩
    exact ⟨x % tw, y % th, Nat.mod_lt _ tw0, Nat.mod_lt _ th0, by omega, by omega, by rw [ex, ey]⟩
  cases hct : f.contig with
  | true =>
    obtain ⟨s', h1, h2⟩ := foldRes_target (tileContig ⟨fl, lib, f, decide (f.fmt = 3), f.bps / 8⟩ tw th) (fun s => s.2) (target fl lib f)
      (fun p (k : Nat × Nat) => k.1 < f.spp ∧ ∃ c r, c < tw ∧ r < th ∧ p.1 + c < f.w ∧ p.2 + r < f.h ∧ k.2 = (p.2 + r) * f.w + (p.1 + c))
      (corners xs ys) (List.replicate (tileSize f tw th) 0, st)
      (fun p _ s => tileContig_ok hfl lib f h hct tw th hsz p.1 p.2 (hok.2 _ _ _) s)
    refine ⟨s'.2, by unfold readTiled; simp only [hxs, hys, Res.ok_bind, hct, if_true, h1], ?_⟩
    intro ch x y hc hx hy
    obtain ⟨c1, c2⟩ := cover x y hx hy
    exact fin s'.2 ch x y hx (h2 _ (Or.inr ⟨_, c1, hc, c2⟩))
  | false =>
    obtain ⟨s', h1, h2⟩ := foldRes_target (tileSeparate ⟨fl, lib, f, decide (f.fmt = 3), f.bps / 8⟩ tw th) (fun s => s.2) (target fl lib f)
      (fun p (k : Nat × Nat) => k.1 = p.1 ∧ ∃ c r, c < tw ∧ r < th ∧ p.2.1 + c < f.w ∧ p.2.2 + r < f.h ∧ k.2 = (p.2.2 + r) * f.w + (p.2.1 + c))
      ((List.range f.spp).flatMap fun ch => (corners xs ys).map fun p => (ch, p)) (List.replicate (tileSize f tw th) 0, st) (by
      intro p hp s
      simp only [List.mem_flatMap, List.mem_range, List.mem_map] at hp
      obtain ⟨ch, hch, q, hq, rfl⟩ := hp
      exact tileSeparate_ok hfl lib f h hct tw th hsz ch q.1 q.2 hch (hok.2 _ _ _) s)
    refine ⟨s'.2, by unfold readTiled; simp only [hxs, hys, Res.ok_bind, hct, Bool.false_eq_true, if_false, h1], ?_⟩
    intro ch x y hc hx hy
    obtain ⟨c1, c2⟩ := cover x y hx hy
    refine fin s'.2 ch x y hx (h2 _ (Or.inr ⟨(ch, (x / tw * tw, y / th * th)), ?_, rfl, c2⟩))
    simp only [List.mem_flatMap, List.mem_range, List.mem_map]
    exact ⟨ch, hc, _, c1, rfl⟩

/-- The raw reader, before anything is said about which channel means what. -/
theorem readFile_basic {fl : ℚ → ℚ} (hfl : IsRounding fl) (lib : Lib) (f : File) (h : Basic f) (hft : Fits f) (hok : Readable f) :
    ∃ t, readFile fl lib f = .ok t ∧ t.w = f.w ∧ t.h = f.h ∧ t.n = f.spp ∧ t.alpha = alphaIndex f ∧
      ∀ c x y, c < f.spp → x < f.w → y < f.h → t.channels (c, y * f.w + x) =
        if f.photo = 0 ∧ alphaIndex f ≠ some c then invert fl (value fl lib f (f.sample x y c)) else value fl lib f (f.sample x y c) := by
  have hacc : accepted f = true := by
    have h1 := h.w_pos
    have h2 := h.h_pos
    unfold accepted
    rcases h.form with ⟨e, e' | e' | e'⟩ | ⟨e, e'⟩ <;> simp [e, e', Nat.pos_iff_ne_zero.1 h1, Nat.pos_iff_ne_zero.1 h2]
  obtain ⟨s', h1, h2⟩ : ∃ s', readStored ⟨fl, lib, f, decide (f.fmt = 3), f.bps / 8⟩ (fun _ => .val 0) = .ok s' ∧
      ∀ ch x y, ch < f.spp → x < f.w → y < f.h → s' (ch, y * f.w + x) = value fl lib f (f.sample x y ch) := by
    unfold readStored
    cases ht : f.tile with
    | none => simp only [ht]; exact stripped_ok hfl lib f h hft hok _
    | some p => simp only [ht]; exact tiled_ok hfl lib f h hft hok p.1 p.2 (by rw [ht]) _
  refine ⟨⟨f.w, f.h, f.spp, unwhite fl f s', alphaIndex f⟩, ?_, rfl, rfl, rfl, rfl, ?_⟩
  · unfold readFile
    rw [if_pos hacc, if_neg h.plain.1]
    simp only
    rw [h1, Res.ok_bind]
  · intro c x y hc hx hy
    show unwhite fl f s' (c, y * f.w + x) = _
    unfold unwhite
    rw [h2 c x y hc hx hy]

/-- The raw reader. -/
theorem readFile_ok {fl : ℚ → ℚ} (hfl : IsRounding fl) (lib : Lib) (f : File) (h : Plain f) (hft : Fits f) (hok : Readable f) :
    ∃ t, readFile fl lib f = .ok t ∧ t.w = f.w ∧ t.h = f.h ∧ t.n = f.spp ∧ t.alpha = (if f.extra = [] then none else some (colours f.photo)) ∧
      (∀ c x y, c < colours f.photo → x < f.w → y < f.h → t.channels (c, y * f.w + x) = shown fl lib f x y c) ∧
      (f.extra ≠ [] → ∀ x y, x < f.w → y < f.h → t.channels (colours f.photo, y * f.w + x) = value fl lib f (f.sample x y (colours f.photo))) := by
  have hspp := h.spp
  have hal : alphaIndex f = if f.extra = [] then none else some (colours f.photo) := by
    have hs := h.spp
    unfold alphaIndex
    rcases h.extra with e | e | e <;> rw [e] at hs ⊢ <;> simp at hs ⊢ <;> omega
  obtain ⟨t, h1, h2, h3, h4, h5, h6⟩ := readFile_basic hfl lib f h.toBasic hft hok
  refine ⟨t, h1, h2, h3, h4, by rw [h5, hal], ?_, ?_⟩
  · intro c x y hc hx hy
    rw [h6 c x y (by omega) hx hy]
    unfold shown
    have : alphaIndex f ≠ some c := by
      rw [hal]; split
      · simp
      · simp; omega
    by_cases hp : f.photo = 0
    · rw [if_pos ⟨hp, this⟩, if_pos hp]
    · rw [if_neg (fun k => hp k.1), if_neg hp]
  · intro he x y hx hy
    have hlen : f.extra.length = 1 := by
      rcases h.extra with e | e | e
      · exact absurd e he
      · simp [e]
      · simp [e]
    rw [h6 (colours f.photo) x y (by omega) hx hy, if_neg]
    rintro ⟨_, k⟩
    rw [hal, if_neg he] at k
    exact k rfl

end Huira.ImageIO.Tiff
