import Verif.ImageIO.Jpeg
import Verif.ImageIO.PngWrite
/-!
# JPEG: what is read and written (C106)
-/
set_option linter.unusedSimpArgs false
set_option linter.unusedVariables false
namespace Huira.ImageIO.Jpeg
open Huira.Num Huira.ImageIO Huira.ImageIO.Convert Huira.ImageIO.Png

/-! ## Specification -/

/-- What the TurboJPEG documentation promises: the dimensions are positive and at most 65535, the samples delivered are
8-bit and tightly packed, grey or RGB as asked. -/
structure LibOk (lib : Lib) : Prop where
  size : ∀ d w h, lib.header d = some (w, h) → 0 < w ∧ w ≤ 65535 ∧ 0 < h ∧ h ≤ 65535
  samples : ∀ d w h gray px, lib.header d = some (w, h) → lib.decode d gray = some px →
    px.length = w * h * (if gray then 1 else 3) ∧ ∀ v ∈ px, v ≤ 255

/-- Compression at this quality succeeds, keeps the size and changes no level by more than `ε`. -/
def Lossy (lib : Lib) (quality : Int) (ε : ℚ) : Prop := ∀ w h buf, 0 < w → w ≤ 65535 → 0 < h → h ≤ 65535 →
  buf.length = w * h * 3 → (∀ v ∈ buf, v ≤ 255) →
  ∃ d px, lib.compress buf w h quality = some d ∧ lib.header d = some (w, h) ∧ lib.decode d false = some px ∧
    ∀ (i u v : ℕ), buf[i]? = some u → px[i]? = some v → |(v : ℚ) - u| ≤ ε

/-- The property in full. -/
def C106_full : Prop := ∀ fl : ℚ → ℚ, IsRounding fl → ∀ lib, LibOk lib →
  (∀ d, readRGB fl lib d ≠ .ub) ∧ ∀ b q, b.image.WF → writeRGB fl lib b q ≠ .ub

/-! ## Reading -/

theorem i32_ok' (n : Int) (h0 : 0 ≤ n) (h : n < 2147483648) : i32 n = .ok n := by
  unfold i32; rw [if_pos ⟨by omega, h⟩]

theorem bufferSize_ok (w h c : Nat) (hc : 0 < c) (hs : w * h * c < 2147483648) : bufferSize w h c = .ok (w * h * c) := by
  unfold bufferSize
  have h1 : w * h ≤ w * h * c := Nat.le_mul_of_pos_right _ hc
  rw [i32_ok' _ (by positivity) (by exact_mod_cast lt_of_le_of_lt h1 hs), Res.ok_bind,
    i32_ok' _ (by positivity) (by exact_mod_cast hs), Res.ok_bind]
  unfold toSizeT
  rw [Int.emod_eq_of_lt (by positivity) (by
    have : ((w * h * c : Nat) : Int) < 2147483648 := by exact_mod_cast hs
    push_cast at this; omega)]
  congr 1

theorem readRaw_ok (lib : Lib) (hl : LibOk lib) (d : List Byte) (gray : Bool) (w h : Nat) (px : List Nat) (hh : lib.header d = some (w, h))
    (hd : lib.decode d gray = some px) (hs : w * h * (if gray then 1 else 3) < 2147483648) : readRaw lib d gray = .ok (w, h, px) := by
  unfold readRaw
  rw [hh]
  simp only
  rw [bufferSize_ok w h _ (by cases gray <;> simp) hs, Res.ok_bind, hd]
  simp only
  have := (hl.samples d w h gray px hh hd).1
  rw [if_pos (by omega), this]; simp

/-- **C106.**  A decodable JPEG of less than 2^31 bytes of RGB is read pixel by pixel: the image has the file's size and each
component is the nearest `float` to level/255; there is no alpha image and the values are marked sRGB. -/
theorem C106_read_partial {fl : ℚ → ℚ} (hfl : IsRounding fl) (lib : Lib) (hl : LibOk lib) (d : List Byte) (w h : Nat) (px : List Nat)
    (hh : lib.header d = some (w, h)) (hd : lib.decode d false = some px) (hs : w * h * 3 < 2147483648) :
    ∃ b, readRGB fl lib d = .ok b ∧ b.image.w = w ∧ b.image.h = h ∧ b.image.WF ∧ b.alpha = ⟨0, 0, []⟩ ∧ (b.hint = .sRGB ∧ b.gamma = 1 ∧ b.depth = 8) ∧
      ∀ x y, x < w → y < h → ∃ r g bl, px[(y * w + x) * 3]? = some r ∧ px[(y * w + x) * 3 + 1]? = some g ∧ px[(y * w + x) * 3 + 2]? = some bl ∧
        b.image.data[y * w + x]? = some (.val (fl (r / 255)), .val (fl (g / 255)), .val (fl (bl / 255))) := by
  obtain ⟨hlen, hv⟩ := hl.samples d w h false px hh hd
  simp only [Bool.false_eq_true, if_false] at hlen
  have hget : ∀ x y c, x < w → y < h → c < 3 → ∃ v, px[(y * w + x) * 3 + c]? = some v ∧ v ≤ 255 := by
    intro x y c hx hy hc
    have hlt : (y * w + x) * 3 + c < px.length := by rw [hlen]; exact pixel_index_lt w h 3 x y c hx hy hc
    exact ⟨_, List.getElem?_eq_getElem hlt, hv _ (List.getElem_mem hlt)⟩
  have hf : ∀ v : Nat, v ≤ 255 → toFloatU fl 255 (v : ℤ) 0 1 = fl ((v : ℚ) / 255) := by
    intro v hv
    rw [toFloatU_eq hfl 255 _ (by norm_num) (by omega) (by omega)]; norm_num
  obtain ⟨out, ho, hlo, hall⟩ := mapRes_choose (fun q : Nat × Nat => pixelRGB fl px w q.1 q.2)
    (fun q p => ∃ r g bl : Nat, px[(q.2 * w + q.1) * 3]? = some r ∧ px[(q.2 * w + q.1) * 3 + 1]? = some g ∧ px[(q.2 * w + q.1) * 3 + 2]? = some bl ∧
      p = (FV.val (fl ((r : ℚ) / 255)), FV.val (fl ((g : ℚ) / 255)), FV.val (fl ((bl : ℚ) / 255)))) (grid w h) (by
    intro q hq
    obtain ⟨hx, hy⟩ := (mem_grid _ _ _).1 hq
    obtain ⟨r, hr, hr'⟩ := hget q.1 q.2 0 hx hy (by omega)
    obtain ⟨g, hg, hg'⟩ := hget q.1 q.2 1 hx hy (by omega)
    obtain ⟨bl, hb, hb'⟩ := hget q.1 q.2 2 hx hy (by omega)
    refine ⟨_, ?_, r, g, bl, by simpa using hr, hg, hb, rfl⟩
    unfold pixelRGB at?
    simp only [hr, hg, hb, Res.ok_bind, hf r hr', hf g hg', hf bl hb'])
  refine ⟨_, by unfold readRGB; rw [readRaw_ok lib hl d false w h px hh hd (by simpa using hs), Res.ok_bind]; simp only; rw [ho]; rfl,
    rfl, rfl, ?_, rfl, ⟨rfl, rfl, rfl⟩, ?_⟩
  · show out.length = h * w
    rw [hlo, grid_length]
  · intro x y hx hy
    obtain ⟨p, hp, r, g, bl, h1, h2, h3, rfl⟩ := hall (y * w + x) (x, y) (grid_get w h x y hx hy)
    exact ⟨r, g, bl, h1, h2, h3, hp⟩

/-- **C106.**  The mono reader gives each pixel the nearest `float` to its grey level/255. -/
theorem C106_read_mono_partial {fl : ℚ → ℚ} (hfl : IsRounding fl) (lib : Lib) (hl : LibOk lib) (d : List Byte) (w h : Nat) (px : List Nat)
    (hh : lib.header d = some (w, h)) (hd : lib.decode d true = some px) (hs : w * h < 2147483648) :
    ∃ b, readMono fl lib d = .ok b ∧ b.image.w = w ∧ b.image.h = h ∧ b.image.WF ∧ b.alpha = ⟨0, 0, []⟩ ∧ (b.hint = .sRGB ∧ b.gamma = 1 ∧ b.depth = 8) ∧
      ∀ x y, x < w → y < h → ∃ v, px[y * w + x]? = some v ∧ b.image.data[y * w + x]? = some (.val (fl (v / 255))) := by
  obtain ⟨hlen, hv⟩ := hl.samples d w h true px hh hd
  simp only [if_true, Nat.mul_one] at hlen
  have hf : ∀ v : Nat, v ≤ 255 → toFloatU fl 255 (v : ℤ) 0 1 = fl ((v : ℚ) / 255) := by
    intro v hv
    rw [toFloatU_eq hfl 255 _ (by norm_num) (by omega) (by omega)]; norm_num
  obtain ⟨out, ho, hlo, hall⟩ := mapRes_choose (fun i : Nat => at? px i >>= fun v => .ok (FV.val (toFloatU fl 255 (v : ℤ) 0 1)))
    (fun i p => ∃ v : Nat, px[i]? = some v ∧ p = FV.val (fl ((v : ℚ) / 255))) (List.range (w * h)) (by
    intro i hi
    have hlt : i < px.length := by rw [hlen]; exact List.mem_range.1 hi
    refine ⟨_, ?_, px[i], List.getElem?_eq_getElem hlt, rfl⟩
    unfold at?
    simp only [List.getElem?_eq_getElem hlt, Res.ok_bind, hf _ (hv _ (List.getElem_mem hlt))])
  refine ⟨_, by
    unfold readMono
    rw [readRaw_ok lib hl d true w h px hh hd (by simpa using hs), Res.ok_bind]
    simp only
    rw [i32_ok' _ (by positivity) (by exact_mod_cast hs), Res.ok_bind, show ((w : Int) * h).toNat = w * h by rw [← Nat.cast_mul]; rfl, ho]
    rfl, rfl, rfl, ?_, rfl, ⟨rfl, rfl, rfl⟩, ?_⟩
  · show out.length = h * w
    rw [hlo, List.length_range, Nat.mul_comm]
  · intro x y hx hy
    have hlt : y * w + x < w * h := by
      have := pixel_index_lt w h 1 x y 0 hx hy (by omega)
      omega
    obtain ⟨p, hp, v, h1, rfl⟩ := hall (y * w + x) (y * w + x) (List.getElem?_range hlt)
    exact ⟨v, h1, hp⟩

/-- **C106 (partial).**  No byte string announcing an image of less than 2^31 bytes of RGB makes the reader misbehave. -/
theorem C106_safe_partial {fl : ℚ → ℚ} (hfl : IsRounding fl) (lib : Lib) (hl : LibOk lib) (d : List Byte)
    (hs : ∀ w h, lib.header d = some (w, h) → w * h * 3 < 2147483648) : readRGB fl lib d ≠ .ub := by
  cases hh : lib.header d with
  | none => simp [readRGB, readRaw, hh]
  | some p =>
    obtain ⟨w, h⟩ := p
    have hs' := hs w h hh
    cases hd : lib.decode d false with
    | none =>
      have : readRaw lib d false = .throw := by
        unfold readRaw; rw [hh]; simp only
        rw [bufferSize_ok w h _ (by simp) (by simpa using hs'), Res.ok_bind, hd]
      simp [readRGB, this]
    | some px =>
      obtain ⟨b, hb, _⟩ := C106_read_partial hfl lib hl d w h px hh hd hs'
      rw [hb]; simp

/-- **C106 (violated).**  Every image of 2^31 bytes of RGB or more — within the size JPEG allows — overflows the buffer size
computation: undefined behaviour. -/
theorem C106_overflow (fl : ℚ → ℚ) (lib : Lib) (d : List Byte) (w h : Nat) (hh : lib.header d = some (w, h)) (hs : 2147483648 ≤ w * h * 3) :
    readRGB fl lib d = .ub := by
  have : readRaw lib d false = .ub := by
    unfold readRaw; rw [hh]; simp only
    have : bufferSize w h (if false = true then 1 else 3) = .ub := by
      simp only [Bool.false_eq_true, if_false]
      unfold bufferSize
      by_cases h1 : w * h < 2147483648
      · rw [i32_ok' _ (by positivity) (by exact_mod_cast h1), Res.ok_bind]
        have : i32 ((w : Int) * h * (3 : Nat)) = .ub := by
          unfold i32; rw [if_neg]
          rintro ⟨_, h2⟩
          have : ((w * h * 3 : Nat) : Int) < 2147483648 := by push_cast at h2 ⊢; exact h2
          omega
        rw [this]; rfl
      · have : i32 ((w : Int) * h) = .ub := by
          unfold i32; rw [if_neg]
          rintro ⟨_, h2⟩
          have : ((w * h : Nat) : Int) < 2147483648 := by push_cast; exact h2
          omega
        rw [this]; rfl
    rw [this]; rfl
  simp [readRGB, this]

/-! ## Writing -/

theorem flatten_get (ls : List (List Nat)) (h : ∀ l ∈ ls, l.length = 3) : ∀ i c, c < 3 → ls.flatten[i * 3 + c]? = (ls[i]?).bind (·[c]?) := by
  induction ls with
  | nil => intro i c _; simp
  | cons l ls ih =>
    intro i c hc
    have hl := h l (List.mem_cons_self ..)
    rw [List.flatten_cons]
    cases i with
    | zero =>
      rw [List.getElem?_append_left (by omega)]; simp
    | succ i =>
      rw [List.getElem?_append_right (by omega), show (i + 1) * 3 + c - l.length = i * 3 + c by omega,
        ih (fun m hm => h m (List.mem_cons_of_mem _ hm)) i c hc]
      simp

theorem flatten_length3 (ls : List (List Nat)) (h : ∀ l ∈ ls, l.length = 3) : ls.flatten.length = ls.length * 3 := by
  induction ls with
  | nil => rfl
  | cons l ls ih =>
    rw [List.flatten_cons, List.length_append, ih (fun m hm => h m (List.mem_cons_of_mem _ hm)), h l (List.mem_cons_self ..), List.length_cons]
    omega

/-- **C106.**  Empty images and qualities outside 1…100 are refused. -/
theorem C106_write_refuses (fl : ℚ → ℚ) (lib : Lib) (b : Bundle (FV × FV × FV)) (q : Int) :
    (b.image.w = 0 ∨ b.image.h = 0 → writeRGB fl lib b q = .throw) ∧ (q < 1 ∨ q > 100 → writeRGB fl lib b q = .throw) := by
  constructor
  · intro h; unfold writeRGB; rw [if_pos h]
  · intro h; unfold writeRGB; rw [if_pos h]; split <;> rfl

/-- **C106 (partial).**  With a codec that changes no level by more than `ε`, a non-empty image without NaN written with a
quality in 1…100 comes back with the same size and every component, clamped to [0, 1], to within `(ε + 0.53)/255`. -/
theorem C106_roundtrip_partial {fl : ℚ → ℚ} (hfl : IsRounding fl) (lib : Lib) (hl : LibOk lib) (b : Bundle (FV × FV × FV)) (q : Int) (ε : ℚ)
    (hq : 1 ≤ q ∧ q ≤ 100) (hloss : Lossy lib q ε) (hn : ∀ p ∈ b.image.data, p.1 ≠ .nan ∧ p.2.1 ≠ .nan ∧ p.2.2 ≠ .nan)
    (hw : 0 < b.image.w ∧ b.image.w ≤ 65535) (hh : 0 < b.image.h ∧ b.image.h ≤ 65535) (hwf : b.image.WF) (hs : b.image.w * b.image.h * 3 < 2147483648) :
    ∃ d b', writeRGB fl lib b q = .ok d ∧ readRGB fl lib d = .ok b' ∧ b'.image.w = b.image.w ∧ b'.image.h = b.image.h ∧
      ∀ x y, x < b.image.w → y < b.image.h → ∃ r g bl r' g' bl', b.image.data[y * b.image.w + x]? = some (.val r, .val g, .val bl) ∧
        b'.image.data[y * b.image.w + x]? = some (.val r', .val g', .val bl') ∧ |r' - min 1 (max 0 r)| ≤ (ε + 53 / 100) / 255 ∧
        |g' - min 1 (max 0 g)| ≤ (ε + 53 / 100) / 255 ∧ |bl' - min 1 (max 0 bl)| ≤ (ε + 53 / 100) / 255 := by
  -- the levels written, with how near each is
  have lev : ∀ v : FV, v ≠ .nan → ∃ q n, v = .val q ∧ toLevel fl 255 v = .ok n ∧ n ≤ 255 ∧ |(n : ℚ) - 255 * min 1 (max 0 q)| ≤ 1 / 2 + 6 / 256 := by
    intro v hv
    cases v with
    | nan => exact absurd rfl hv
    | val u =>
      obtain ⟨n, h1, h2, h3⟩ := toLevel_near hfl u
      exact ⟨u, n, rfl, h1, h2, h3⟩
  obtain ⟨out, ho, hlo, hall⟩ := mapRes_choose (fun p : Nat × Nat => levelsOf fl b.image p.1 p.2)
    (fun p l => ∃ u1 u2 u3 n1 n2 n3, b.image.data[p.2 * b.image.w + p.1]? = some (.val u1, .val u2, .val u3) ∧ l = [n1, n2, n3] ∧
      (n1 ≤ 255 ∧ n2 ≤ 255 ∧ n3 ≤ 255) ∧ |(n1 : ℚ) - 255 * min 1 (max 0 u1)| ≤ 1 / 2 + 6 / 256 ∧ |(n2 : ℚ) - 255 * min 1 (max 0 u2)| ≤ 1 / 2 + 6 / 256 ∧
      |(n3 : ℚ) - 255 * min 1 (max 0 u3)| ≤ 1 / 2 + 6 / 256) (grid b.image.w b.image.h) (by
    intro p hp
    obtain ⟨hx, hy⟩ := (mem_grid _ _ _).1 hp
    obtain ⟨px, hpx, hm⟩ := img_get b.image hwf p.1 p.2 hx hy
    obtain ⟨k1, k2, k3⟩ := hn px hm
    obtain ⟨u1, n1, e1, t1, k1', d1⟩ := lev _ k1
    obtain ⟨u2, n2, e2, t2, k2', d2⟩ := lev _ k2
    obtain ⟨u3, n3, e3, t3, k3', d3⟩ := lev _ k3
    refine ⟨[n1, n2, n3], ?_, u1, u2, u3, n1, n2, n3, ?_, rfl, ⟨k1', k2', k3'⟩, d1, d2, d3⟩
    · simp [levelsOf, pixelAt, hpx, t1, t2, t3]
    · rw [hpx, ← e1, ← e2, ← e3])
  have h3 : ∀ l ∈ out, l.length = 3 := by
    intro l hl'
    obtain ⟨i, hi⟩ := List.getElem?_of_mem hl'
    have hi' : i < (grid b.image.w b.image.h).length := by
      rw [← hlo]; by_contra hc; rw [List.getElem?_eq_none (by omega)] at hi; simp at hi
    obtain ⟨l', hl'', _, _, _, _, _, _, _, hlen, _⟩ := hall i _ (List.getElem?_eq_getElem hi')
    rw [hi] at hl''; injection hl'' with hl''; rw [hl'', hlen]; rfl
  have hflen : out.flatten.length = b.image.w * b.image.h * 3 := by
    rw [flatten_length3 out h3, hlo, grid_length, Nat.mul_comm b.image.h]
  have hf255 : ∀ v ∈ out.flatten, v ≤ 255 := by
    intro v hv
    obtain ⟨l, hl', hvl⟩ := List.mem_flatten.1 hv
    obtain ⟨i, hi⟩ := List.getElem?_of_mem hl'
    have hi' : i < (grid b.image.w b.image.h).length := by
      rw [← hlo]; by_contra hc; rw [List.getElem?_eq_none (by omega)] at hi; simp at hi
    obtain ⟨l', hl'', _, _, _, n1, n2, n3, _, rfl, ⟨k1, k2, k3⟩, _⟩ := hall i _ (List.getElem?_eq_getElem hi')
    rw [hi] at hl''; injection hl'' with hl''; rw [hl''] at hvl
    simp at hvl; rcases hvl with rfl | rfl | rfl <;> assumption
  obtain ⟨d, px, c1, c2, c3, c4⟩ := hloss b.image.w b.image.h out.flatten hw.1 hw.2 hh.1 hh.2 hflen hf255
  have hwrite : writeRGB fl lib b q = .ok d := by
    unfold writeRGB
    rw [if_neg (by omega), if_neg (by omega), ho, Res.ok_bind, c1]
  obtain ⟨b', r1, r2, r3, _, _, _, r4⟩ := C106_read_partial hfl lib hl d _ _ px c2 c3 hs
  refine ⟨d, b', hwrite, r1, r2, r3, ?_⟩
  intro x y hx hy
  obtain ⟨r, g, bl, p1, p2, p3, p4⟩ := r4 x y hx hy
  obtain ⟨l, hl1, u1, u2, u3, n1, n2, n3, v1, rfl, _, d1, d2, d3⟩ := hall (y * b.image.w + x) (x, y) (grid_get _ _ x y hx hy)
  have g0 := flatten_get out h3 (y * b.image.w + x) 0 (by omega)
  have g1 := flatten_get out h3 (y * b.image.w + x) 1 (by omega)
  have g2 := flatten_get out h3 (y * b.image.w + x) 2 (by omega)
  rw [hl1] at g0 g1 g2
  simp only [Option.bind_some, Nat.add_zero] at g0 g1 g2
  have m0 := c4 _ _ _ g0 p1
  have m1 := c4 _ _ _ g1 p2
  have m2 := c4 _ _ _ g2 p3
  have hv := (hl.samples d _ _ false px c2 c3).2
  have fin : ∀ (v n : ℕ) (u : ℚ), v ∈ px → |(v : ℚ) - n| ≤ ε → |(n : ℚ) - 255 * min 1 (max 0 u)| ≤ 1 / 2 + 6 / 256 →
      |fl ((v : ℚ) / 255) - min 1 (max 0 u)| ≤ (ε + 53 / 100) / 255 := by
    intro v n u hvm h1 h2
    have hv255 : (v : ℚ) ≤ 255 := by exact_mod_cast hv v hvm
    have e := hfl.rel ((v : ℚ) / 255)
    rw [abs_of_nonneg (by positivity : (0 : ℚ) ≤ (v : ℚ) / 255)] at e
    have e' := abs_le.1 e
    have : (v : ℚ) / 255 / 2 ^ 24 ≤ 1 / 2 ^ 24 := by
      have : (v : ℚ) / 255 ≤ 1 := by rw [div_le_one (by norm_num)]; exact hv255
      gcongr
    generalize min 1 (max 0 u) = m at h2 ⊢
    have h1' := abs_le.1 h1
    have h2' := abs_le.1 h2
    norm_num at this e'
    rw [abs_le]; constructor <;> linarith
  exact ⟨u1, u2, u3, _, _, _, v1, p4, fin r n1 u1 (List.mem_of_getElem? p1) m0 d1, fin g n2 u2 (List.mem_of_getElem? p2) m1 d2,
    fin bl n3 u3 (List.mem_of_getElem? p3) m2 d3⟩

/-- **C106 (violated).**  Writing an image containing a NaN is undefined behaviour. -/
theorem C106_nan (fl : ℚ → ℚ) (lib : Lib) : writeRGB fl lib ⟨⟨1, 1, [(.nan, .val 0, .val 0)]⟩, ⟨0, 0, []⟩, .sRGB, 1, 8⟩ 95 = .ub := by
  simp [writeRGB, mapRes, grid, levelsOf, pixelAt, toLevel, List.range_succ]

/-- A codec announcing a 30000 × 30000 image for every input (no data delivered). -/
def bigLib : Lib := ⟨fun _ => some (30000, 30000), fun _ _ => none, fun _ _ _ _ => none⟩

theorem bigLib_ok : LibOk bigLib := by
  refine ⟨?_, ?_⟩
  · intro d w h e; simp [bigLib] at e; omega
  · intro d w h gray px _ e; simp [bigLib] at e

theorem C106_violated : ¬ C106_full := by
  intro h
  exact (h float32 float32_exists bigLib bigLib_ok).1 [] (C106_overflow float32 bigLib [] 30000 30000 rfl (by norm_num))

/-- A lossless toy codec (two bytes for the width, two for the height, then the levels) shows that the hypotheses can be met. -/
def toyW (d : List Byte) : Nat := (d[0]?.getD 0).toNat + 256 * (d[1]?.getD 0).toNat
def toyH (d : List Byte) : Nat := (d[2]?.getD 0).toNat + 256 * (d[3]?.getD 0).toNat
def toyLib : Lib := ⟨
  fun d => if 0 < toyW d ∧ 0 < toyH d ∧ d.length = 4 + toyW d * toyH d * 3 then some (toyW d, toyH d) else none,
  fun d gray => if d.length = 4 + toyW d * toyH d * 3 then
    some (if gray then ((d.drop 4).map (·.toNat)).take (toyW d * toyH d) else (d.drop 4).map (·.toNat)) else none,
  fun buf w h _ => some ([UInt8.ofNat w, UInt8.ofNat (w / 256), UInt8.ofNat h, UInt8.ofNat (h / 256)] ++ buf.map UInt8.ofNat)⟩

theorem byte_le (a : Byte) : a.toNat ≤ 255 := by have := a.toNat_lt; omega

theorem toyLib_ok : LibOk toyLib := by
  refine ⟨?_, ?_⟩
  · intro d w h e
    simp only [toyLib] at e
    split at e
    · rename_i hc
      simp at e
      obtain ⟨rfl, rfl⟩ := e
      have h1 := byte_le (d[0]?.getD 0); have h2 := byte_le (d[1]?.getD 0)
      have h3 := byte_le (d[2]?.getD 0); have h4 := byte_le (d[3]?.getD 0)
      refine ⟨hc.1, ?_, hc.2.1, ?_⟩
      · unfold toyW; omega
      · unfold toyH; omega
    · simp at e
  · intro d w h gray px e1 e2
    simp only [toyLib] at e1 e2
    split at e1
    · rename_i hc
      simp only [Option.some.injEq, Prod.mk.injEq] at e1
      obtain ⟨rfl, rfl⟩ := e1
      rw [if_pos hc.2.2] at e2
      injection e2 with e2
      have hl : ((d.drop 4).map (·.toNat)).length = toyW d * toyH d * 3 := by
        rw [List.length_map, List.length_drop, hc.2.2]; omega
      subst e2
      cases gray
      · refine ⟨by simpa using hl, ?_⟩
        intro v hv
        simp only [Bool.false_eq_true, if_false, List.mem_map] at hv
        obtain ⟨a, _, rfl⟩ := hv; exact byte_le a
      · refine ⟨by simp only [if_true]; rw [List.length_take, hl]; omega, ?_⟩
        intro v hv
        simp only [if_true] at hv
        obtain ⟨a, _, rfl⟩ := List.mem_map.1 (List.mem_of_mem_take hv); exact byte_le a
    · simp at e1

theorem toyLib_lossless (q : Int) : Lossy toyLib q 0 := by
  intro w h buf hw0 hw hh0 hh hl hb
  have e1 : toyW ([UInt8.ofNat w, UInt8.ofNat (w / 256), UInt8.ofNat h, UInt8.ofNat (h / 256)] ++ buf.map UInt8.ofNat) = w := by
    simp [toyW, UInt8.toNat_ofNat']; omega
  have e2 : toyH ([UInt8.ofNat w, UInt8.ofNat (w / 256), UInt8.ofNat h, UInt8.ofNat (h / 256)] ++ buf.map UInt8.ofNat) = h := by
    simp [toyH, UInt8.toNat_ofNat']; omega
  have e3 : ([UInt8.ofNat w, UInt8.ofNat (w / 256), UInt8.ofNat h, UInt8.ofNat (h / 256)] ++ buf.map UInt8.ofNat).length = 4 + w * h * 3 := by
    rw [List.length_append, List.length_map, hl]; rfl
  have e4 : ((buf.map UInt8.ofNat).map (·.toNat)) = buf := by
    rw [List.map_map]
    conv_rhs => rw [← List.map_id buf]
    apply List.map_congr_left
    intro v hv
    have := hb v hv
    simp [UInt8.toNat_ofNat']; omega
  refine ⟨_, buf, rfl, ?_, ?_, ?_⟩
  · simp only [toyLib]; rw [e1, e2, e3, if_pos ⟨hw0, hh0, rfl⟩]
  · simp only [toyLib]; rw [e1, e2, e3, if_pos rfl]
    simpa using e4
  · intro i u v h1 h2
    rw [h1] at h2; injection h2 with h2; subst h2; simp

/-- A 1 × 1 file meets the hypotheses of `C106_read_partial`. -/
example : ∃ b, readRGB float32 toyLib [1, 0, 1, 0, 255, 0, 51] = .ok b ∧ b.image.data = [(.val (float32 1), .val (float32 0), .val (float32 (1 / 5)))] := by
  obtain ⟨b, h1, h2, h3, h4, _, _, h7⟩ := C106_read_partial float32_exists toyLib toyLib_ok [1, 0, 1, 0, 255, 0, 51] 1 1 [255, 0, 51] rfl rfl (by norm_num)
  obtain ⟨r, g, bl, p1, p2, p3, p4⟩ := h7 0 0 (by norm_num) (by norm_num)
  simp at p1 p2 p3
  subst p1 p2 p3
  refine ⟨b, h1, ?_⟩
  have hl : b.image.data.length = 1 := by rw [h4, h2, h3]
  match hd : b.image.data, hl with
  | [p], _ =>
    rw [hd] at p4
    simp at p4
    rw [p4]; norm_num

/-- A 2 × 1 image (with values outside [0, 1]) meets the hypotheses of `C106_roundtrip_partial`. -/
example : ∃ d b', writeRGB float32 toyLib ⟨⟨2, 1, [(.val (1 / 3), .val 2, .val (-1)), (.val 0, .val 1, .val (1 / 2))]⟩, ⟨0, 0, []⟩, .sRGB, 1, 8⟩ 95 = .ok d ∧
    readRGB float32 toyLib d = .ok b' ∧ b'.image.w = 2 := by
  obtain ⟨d, b', h1, h2, h3, _⟩ := C106_roundtrip_partial float32_exists toyLib toyLib_ok
    ⟨⟨2, 1, [(.val (1 / 3), .val 2, .val (-1)), (.val 0, .val 1, .val (1 / 2))]⟩, ⟨0, 0, []⟩, .sRGB, 1, 8⟩ 95 0 (by norm_num) (toyLib_lossless 95)
    (by intro p hp; simp at hp; rcases hp with rfl | rfl <;> simp) (by norm_num) (by norm_num) rfl (by norm_num)
  exact ⟨d, b', h1, h2, h3⟩

end Huira.ImageIO.Jpeg
