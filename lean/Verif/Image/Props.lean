import Verif.Image.Model
import Mathlib.Tactic.Linarith
import Mathlib.Tactic.Ring
import Mathlib.Tactic.NormNum
import Mathlib.Tactic.FieldSimp
import Mathlib.Tactic.IntervalCases
import Mathlib.Data.Rat.Floor
/-! # Image properties C17-C19 -/
set_option linter.unusedSimpArgs false
namespace Huira.Image

/-! ### C17 -/

/-- The pixel `(x, y)` exists. -/
def InRange (w h : Nat) (x y : Int) : Prop := 0 ≤ x ∧ x < w ∧ 0 ≤ y ∧ y < h

/-- C17 in full: in-range coordinates address an element, all others throw; addresses are a bijection. -/
def C17_full (w h : Nat) : Prop :=
  (∀ x y, InRange w h x y → ∃ i < w * h, at2 w h x y = .elem i) ∧
  (∀ x y x' y' i, InRange w h x y → InRange w h x' y' → at2 w h x y = .elem i → at2 w h x' y' = .elem i →
    x = x' ∧ y = y') ∧
  (∀ i < w * h, ∃ x y, InRange w h x y ∧ at2 w h x y = .elem i) ∧
  (∀ x y, ¬ InRange w h x y → at2 w h x y = .throw)

theorem linear_range (w h : Nat) (x y : Int) (hr : InRange w h x y) :
    0 ≤ toLinear w x y ∧ toLinear w x y < (w * h : Nat) := by
  obtain ⟨h1, h2, h3, h4⟩ := hr
  unfold toLinear
  have hw : (0 : Int) ≤ w := Int.natCast_nonneg w
  constructor
  · have := Int.mul_nonneg h3 hw
    omega
  · have : y + 1 ≤ (h : Int) := by omega
    have := Int.mul_le_mul_of_nonneg_right this hw
    rw [Int.add_mul] at this
    push_cast
    rw [Int.mul_comm (w : Int) h]
    omega

/-- **C17 (violated).** A negative coordinate is not detected: in every image with at least two pixels in the first
column, `at(-1, 1)` silently returns another pixel; `at(-1, 0)` reads before the buffer in every image. -/
theorem C17_violated (w h : Nat) (hw : 0 < w) (hh : 1 < h) : ¬ C17_full w h := by
  intro hf
  have := hf.2.2.2 (-1) 1 (by unfold InRange; omega)
  unfold at2 touch toLinear at this
  rw [if_neg (by omega)] at this
  split at this <;> simp at this

theorem C17_negative_reads (w h : Nat) (hw : 0 < w) (hh : 1 < h) :
    at2 w h (-1) 1 = .elem (w - 1) ∧ at2 w h (-1) 0 = .ub := by
  unfold at2 touch toLinear
  have hm : (w : Int) < ((w * h : Nat) : Int) := by
    have : w * 1 < w * h := Nat.mul_lt_mul_of_pos_left hh hw
    omega
  constructor
  · rw [if_neg (by omega), if_pos (by omega)]
    congr 1
    omega
  · rw [if_neg (by omega), if_neg (by omega)]

/-- C17, linear access: an index below the number of pixels is that element, every other index throws. -/
theorem C17_linear_partial (n i : Nat) : (i < n → at1 n i = .elem i) ∧ (n ≤ i → at1 n i = .throw) := by
  unfold at1
  exact ⟨fun h => by rw [if_neg (by omega)], fun h => by rw [if_pos (by omega)]⟩

example : at1 4 3 = .elem 3 ∧ at1 4 4 = .throw := ⟨rfl, rfl⟩

/-- **C17 (partial).** Everything except the lower bounds: in-range pixels and elements correspond one to one, and
coordinates beyond the width or height throw. -/
theorem C17_partial (w h : Nat) :
    (∀ x y, InRange w h x y → ∃ i < w * h, at2 w h x y = .elem i ∧ call2 w h x y = .elem i) ∧
    (∀ x y x' y' i, InRange w h x y → InRange w h x' y' → at2 w h x y = .elem i → at2 w h x' y' = .elem i →
      x = x' ∧ y = y') ∧
    (∀ i < w * h, ∃ x y, InRange w h x y ∧ at2 w h x y = .elem i) ∧
    (∀ x y : Int, (w : Int) ≤ x ∨ (h : Int) ≤ y → at2 w h x y = .throw) := by
  have key : ∀ x y, InRange w h x y →
      at2 w h x y = .elem (toLinear w x y).toNat ∧ call2 w h x y = .elem (toLinear w x y).toNat := by
    intro x y hr
    have hl := linear_range w h x y hr
    obtain ⟨h1, h2, h3, h4⟩ := hr
    unfold at2 call2 touch
    rw [if_neg (by omega), if_pos hl]
    exact ⟨rfl, rfl⟩
  refine ⟨?_, ?_, ?_, ?_⟩
  · intro x y hr
    have hl := linear_range w h x y hr
    exact ⟨_, by omega, key x y hr⟩
  · intro x y x' y' i hr hr' he he'
    rw [(key x y hr).1] at he
    rw [(key x' y' hr').1] at he'
    injection he with he
    injection he' with he'
    have hl := linear_range w h x y hr
    have hl' := linear_range w h x' y' hr'
    have e : toLinear w x y = toLinear w x' y' := by omega
    unfold toLinear at e
    obtain ⟨a1, a2, a3, a4⟩ := hr
    obtain ⟨b1, b2, b3, b4⟩ := hr'
    have e1 : (x + w * y) % (w : Int) = x := by rw [Int.add_mul_emod_self_left, Int.emod_eq_of_lt a1 a2]
    have e2 : (x' + w * y') % (w : Int) = x' := by rw [Int.add_mul_emod_self_left, Int.emod_eq_of_lt b1 b2]
    have e3 : x + w * y = x' + w * y' := by linarith [Int.mul_comm (w : Int) y, Int.mul_comm (w : Int) y']
    have hx : x = x' := by rw [← e1, ← e2, e3]
    refine ⟨hx, ?_⟩
    have : (w : Int) * y = w * y' := by omega
    exact Int.eq_of_mul_eq_mul_left (by omega) this
  · intro i hi
    have hw : 0 < w := by
      rcases Nat.eq_zero_or_pos w with h0 | h0
      · subst h0; simp at hi
      · exact h0
    have hd : i / w < h := Nat.div_lt_of_lt_mul hi
    have hm : i % w < w := Nat.mod_lt _ hw
    have hr : InRange w h ((i % w : Nat) : Int) ((i / w : Nat) : Int) :=
      ⟨Int.natCast_nonneg _, Int.ofNat_lt.2 hm, Int.natCast_nonneg _, Int.ofNat_lt.2 hd⟩
    refine ⟨_, _, hr, ?_⟩
    rw [(key _ _ hr).1]
    congr 1
    unfold toLinear
    have : (i / w : Nat) * w + i % w = i := by rw [Nat.mul_comm]; exact Nat.div_add_mod i w
    omega
  · intro x y hxy
    unfold at2
    rw [if_pos (by omega)]

example : at2 4 3 3 2 = .elem 11 ∧ at2 4 3 4 2 = .throw ∧ at2 4 3 (-1) 2 = .elem 7 := by decide

/-! ### C18 -/

section Sample
variable {K : Type} [Field K] [LinearOrder K] [IsStrictOrderedRing K] [FloorRing K]

theorem clamp01_range (c : K) : 0 ≤ clamp01 c ∧ clamp01 c ≤ 1 := by
  unfold clamp01
  split
  · exact ⟨le_refl _, zero_le_one⟩
  · split
    · exact ⟨zero_le_one, le_refl _⟩
    · constructor <;> linarith

theorem fmod1_range (c : K) : -1 < fmod1 c ∧ fmod1 c < 1 ∧ (0 ≤ c → 0 ≤ fmod1 c) := by
  unfold fmod1 trunc
  split
  · rename_i h
    have h1 := Int.floor_le c
    have h2 := Int.lt_floor_add_one c
    refine ⟨by linarith, by linarith, fun _ => by linarith⟩
  · rename_i h
    have h1 := Int.le_ceil c
    have h2 := Int.ceil_lt_add_one c
    refine ⟨by linarith, by linarith, fun h' => absurd h' h⟩

/-- Every wrapped coordinate lies in [0,1]. -/
theorem wrap_range (m : Wrap) (c u : K) (h : wrap m c = some u) : 0 ≤ u ∧ u ≤ 1 := by
  have hf := fmod1_range c
  cases m with
  | clamp =>
    simp only [wrap, Option.some.injEq] at h
    rw [← h]; exact clamp01_range c
  | rep =>
    simp only [wrap, Option.some.injEq] at h
    split at h <;> rw [← h] <;> constructor <;> linarith
  | mirror =>
    simp only [wrap] at h
    split at h
    · simp only [Option.some.injEq] at h
      rw [← h]; exact clamp01_range _
    · simp at h

theorem nearestIndex_range (n : Nat) (hn : 0 < n) (u : K) (h0 : 0 ≤ u) (h1 : u ≤ 1) :
    0 ≤ nearestIndex n u ∧ nearestIndex n u < n := by
  have hn1 : (0 : K) ≤ (n : K) - 1 := by
    have : (1 : K) ≤ n := by exact_mod_cast hn
    linarith
  have hp : 0 ≤ u * ((n : K) - 1) := mul_nonneg h0 hn1
  unfold nearestIndex round
  rw [if_pos hp]
  have hfl : 0 ≤ ⌊u * ((n : K) - 1) + 1 / 2⌋ := Int.floor_nonneg.2 (by linarith [one_half_pos (α := K)])
  constructor
  · exact le_min hfl (by omega)
  · exact lt_of_le_of_lt (min_le_right _ _) (by omega)

theorem bilinear_range (n : Nat) (hn : 0 < n) (u : K) (h0 : 0 ≤ u) (h1 : u ≤ 1) :
    0 ≤ trunc (u * ((n : K) - 1)) ∧ trunc (u * ((n : K) - 1)) < n ∧
    0 ≤ u * ((n : K) - 1) - (trunc (u * ((n : K) - 1)) : K) ∧
    u * ((n : K) - 1) - (trunc (u * ((n : K) - 1)) : K) ≤ 1 := by
  have hn1 : (0 : K) ≤ (n : K) - 1 := by
    have : (1 : K) ≤ n := by exact_mod_cast hn
    linarith
  have hp : 0 ≤ u * ((n : K) - 1) := mul_nonneg h0 hn1
  have hle : u * ((n : K) - 1) ≤ (n : K) - 1 := mul_le_of_le_one_left hn1 h1
  unfold trunc
  rw [if_pos hp]
  have a1 := Int.floor_le (u * ((n : K) - 1))
  have a2 := Int.lt_floor_add_one (u * ((n : K) - 1))
  refine ⟨Int.floor_nonneg.2 hp, ?_, by linarith, by linarith⟩
  rw [Int.floor_lt]
  push_cast
  linarith

/-- C18 in full (all three modes answer, inside the image, between the extreme pixels). -/
def C18_full (K : Type) [Field K] [LinearOrder K] [IsStrictOrderedRing K] [FloorRing K] : Prop :=
  ∀ (w h : Nat) (m : Wrap) (u v : K), 0 < w → 0 < h → (sampleNearest w h m u v).isSome ∧
    ∀ img : Int → Int → K, (sampleBilinear w h m img u v).isSome

/-- **C18 (violated).** Mirror mode converts `|u|` to `int`: undefined for `|u| ≥ 2^31`. -/
theorem C18_violated : ¬ C18_full K := by
  intro h
  have := (h 1 1 .mirror (2147483648 : K) 0 (by decide) (by decide)).1
  simp [sampleNearest, wrap] at this

/-- **C18 (partial).** For every non-empty image, every mode and all coordinates (in mirror mode of magnitude below
2^31) nearest sampling reads an element of the image, and bilinear sampling reads four pixels of the image. -/
theorem C18_inside_partial (w h : Nat) (hw : 0 < w) (hh : 0 < h) (m : Wrap) (u v : K)
    (hm : m = .mirror → |u| < 2147483648 ∧ |v| < 2147483648) :
    (∃ i < w * h, sampleNearest w h m u v = some (.elem i)) ∧
    ∃ u' v', wrap m u = some u' ∧ wrap m v = some v' ∧
      ∀ x ∈ [(bilinearSetup w h u' v').x0, (bilinearSetup w h u' v').x1],
      ∀ y ∈ [(bilinearSetup w h u' v').y0, (bilinearSetup w h u' v').y1], InRange w h x y := by
  have hs : ∃ u' v', wrap m u = some u' ∧ wrap m v = some v' := by
    cases m with
    | clamp => exact ⟨_, _, rfl, rfl⟩
    | rep => exact ⟨_, _, rfl, rfl⟩
    | mirror =>
      obtain ⟨h1, h2⟩ := hm rfl
      simp only [wrap, if_pos h1, if_pos h2]
      exact ⟨_, _, rfl, rfl⟩
  obtain ⟨u', v', hu, hv⟩ := hs
  have ru := wrap_range m u u' hu
  have rv := wrap_range m v v' hv
  constructor
  · have nx := nearestIndex_range w hw u' ru.1 ru.2
    have ny := nearestIndex_range h hh v' rv.1 rv.2
    have hl := linear_range w h _ _ ⟨nx.1, nx.2, ny.1, ny.2⟩
    refine ⟨(toLinear w (nearestIndex w u') (nearestIndex h v')).toNat, by omega, ?_⟩
    simp only [sampleNearest, hu, hv, Option.bind_eq_bind, Option.bind_some, touch]
    rw [if_pos hl]
    rfl
  · refine ⟨u', v', hu, hv, ?_⟩
    have bx := bilinear_range w hw u' ru.1 ru.2
    have hy := bilinear_range h hh v' rv.1 rv.2
    intro x hx y hyy
    simp only [List.mem_cons, List.not_mem_nil, or_false, bilinearSetup] at hx hyy
    unfold InRange
    have hx' : 0 ≤ x ∧ x < w := by
      rcases hx with rfl | rfl
      · exact ⟨bx.1, bx.2.1⟩
      · exact ⟨le_min (by omega) (by omega), lt_of_le_of_lt (min_le_right _ _) (by omega)⟩
    have hy' : 0 ≤ y ∧ y < h := by
      rcases hyy with rfl | rfl
      · exact ⟨hy.1, hy.2.1⟩
      · exact ⟨le_min (by omega) (by omega), lt_of_le_of_lt (min_le_right _ _) (by omega)⟩
    exact ⟨hx'.1, hx'.2, hy'.1, hy'.2⟩

/-- **C18 (partial).** The bilinear sample lies between any bounds on the image's pixels; it is a combination with
non-negative weights summing to one. -/
theorem C18_convex_partial (w h : Nat) (hw : 0 < w) (hh : 0 < h) (m : Wrap) (img : Int → Int → K) (u v s : K)
    (hs : sampleBilinear w h m img u v = some s) (lo hi : K)
    (hb : ∀ x y, InRange w h x y → lo ≤ img x y ∧ img x y ≤ hi) : lo ≤ s ∧ s ≤ hi := by
  unfold sampleBilinear at hs
  simp only [Option.bind_eq_bind, Option.bind_eq_some_iff, Option.pure_def, Option.some.injEq] at hs
  obtain ⟨u', hu, v', hv, rfl⟩ := hs
  have ru := wrap_range m u u' hu
  have rv := wrap_range m v v' hv
  have bx := bilinear_range w hw u' ru.1 ru.2
  have hy := bilinear_range h hh v' rv.1 rv.2
  have x0 := And.intro bx.1 bx.2.1
  have y0 := And.intro hy.1 hy.2.1
  have x1 : 0 ≤ min (trunc (u' * ((w : K) - 1)) + 1) ((w : Int) - 1) ∧
      min (trunc (u' * ((w : K) - 1)) + 1) ((w : Int) - 1) < w :=
    ⟨le_min (by omega) (by omega), lt_of_le_of_lt (min_le_right _ _) (by omega)⟩
  have y1 : 0 ≤ min (trunc (v' * ((h : K) - 1)) + 1) ((h : Int) - 1) ∧
      min (trunc (v' * ((h : K) - 1)) + 1) ((h : Int) - 1) < h :=
    ⟨le_min (by omega) (by omega), lt_of_le_of_lt (min_le_right _ _) (by omega)⟩
  obtain ⟨p00, q00⟩ := hb _ _ ⟨x0.1, x0.2, y0.1, y0.2⟩
  obtain ⟨p10, q10⟩ := hb _ _ ⟨x1.1, x1.2, y0.1, y0.2⟩
  obtain ⟨p01, q01⟩ := hb _ _ ⟨x0.1, x0.2, y1.1, y1.2⟩
  obtain ⟨p11, q11⟩ := hb _ _ ⟨x1.1, x1.2, y1.1, y1.2⟩
  obtain ⟨_, _, f0, f1⟩ := bx
  obtain ⟨_, _, g0, g1⟩ := hy
  simp only [bilinearValue, bilinearSetup]
  generalize u' * ((w : K) - 1) - (trunc (u' * ((w : K) - 1)) : K) = f at *
  generalize v' * ((h : K) - 1) - (trunc (v' * ((h : K) - 1)) : K) = g at *
  have w00 : 0 ≤ (1 - f) * (1 - g) := mul_nonneg (by linarith) (by linarith)
  have w10 : 0 ≤ f * (1 - g) := mul_nonneg f0 (by linarith)
  have w01 : 0 ≤ (1 - f) * g := mul_nonneg (by linarith) g0
  have w11 : 0 ≤ f * g := mul_nonneg f0 g0
  constructor
  · nlinarith [mul_le_mul_of_nonneg_right p00 w00, mul_le_mul_of_nonneg_right p10 w10,
      mul_le_mul_of_nonneg_right p01 w01, mul_le_mul_of_nonneg_right p11 w11]
  · nlinarith [mul_le_mul_of_nonneg_right q00 w00, mul_le_mul_of_nonneg_right q10 w10,
      mul_le_mul_of_nonneg_right q01 w01, mul_le_mul_of_nonneg_right q11 w11]

/-- Sampling at a pixel centre of the addressing grid (`u = x/(w-1)`, `v = y/(h-1)`, clamp mode) returns exactly
that pixel, for both samplers. -/
theorem C18_grid_points (w h : Nat) (x y : Nat) (hx : x < w) (hy : y < h) (hw : 1 < w) (hh : 1 < h)
    (img : Int → Int → K) :
    sampleBilinear w h .clamp img ((x : K) / ((w : K) - 1)) ((y : K) / ((h : K) - 1)) = some (img x y) ∧
    sampleNearest w h .clamp ((x : K) / ((w : K) - 1)) ((y : K) / ((h : K) - 1)) = some (.elem (y * w + x)) := by
  have aux : ∀ n k : Nat, k < n → 1 < n → clamp01 ((k : K) / ((n : K) - 1)) = (k : K) / ((n : K) - 1) ∧
      (k : K) / ((n : K) - 1) * ((n : K) - 1) = k := by
    intro n k hk hn
    have hn1 : (0 : K) < (n : K) - 1 := by
      have : (1 : K) < n := by exact_mod_cast hn
      linarith
    have hk1 : (k : K) ≤ (n : K) - 1 := by
      have : (k : K) + 1 ≤ n := by exact_mod_cast hk
      linarith
    constructor
    · unfold clamp01
      rw [if_neg (not_lt.2 (div_nonneg (Nat.cast_nonneg k) hn1.le)), if_neg (not_lt.2 ((div_le_one hn1).2 hk1))]
    · exact div_mul_cancel₀ _ hn1.ne'
  obtain ⟨cx, mx⟩ := aux w x hx hw
  obtain ⟨cy, my⟩ := aux h y hy hh
  have tr : ∀ k : Nat, trunc (k : K) = k := by
    intro k
    unfold trunc
    rw [if_pos (Nat.cast_nonneg k)]
    exact Int.floor_natCast k
  have rd : ∀ k : Nat, round (k : K) = k := by
    intro k
    unfold round
    rw [if_pos (Nat.cast_nonneg k), Int.floor_eq_iff]
    push_cast
    constructor <;> linarith [one_half_pos (α := K), one_half_lt_one (α := K)]
  constructor
  · simp only [sampleBilinear, wrap, cx, cy, Option.bind_eq_bind, Option.bind_some, Option.pure_def]
    congr 1
    simp only [bilinearValue, bilinearSetup, mx, my, tr]
    push_cast
    ring
  · simp only [sampleNearest, wrap, cx, cy, Option.bind_eq_bind, Option.bind_some, Option.pure_def]
    congr 1
    simp only [nearestIndex, mx, my, rd]
    have e1 : min (x : Int) ((w : Int) - 1) = x := min_eq_left (by omega)
    have e2 : min (y : Int) ((h : Int) - 1) = y := min_eq_left (by omega)
    rw [e1, e2]
    have hl := linear_range w h x y ⟨by omega, by omega, by omega, by omega⟩
    unfold touch
    rw [if_pos hl]
    rfl

/-- Repeat mode has period one, mirror mode is even: the names mean what they say. -/
theorem C18_mirror_even (c : K) : wrap .mirror (-c) = wrap .mirror c := by
  simp only [wrap, abs_neg]

end Sample

/-- Non-vacuity: a 2x2 image over the rationals. -/
example : sampleBilinear 2 2 .rep (fun x y => (x + 10 * y : ℚ)) (1/2) (1/4) = some 3 := by
  have f1 : ⌊(1/2 : ℚ)⌋ = 0 := by norm_num
  have f2 : ⌊(1/4 : ℚ)⌋ = 0 := by norm_num
  norm_num [sampleBilinear, wrap, fmod1, trunc, bilinearValue, bilinearSetup]

/-! ### C19 -/

section Conv
variable {K : Type} [CommRing K]
open Finset

/-- Specification: the (zero-padded) convolution sum centred at `(kw/2, kh/2)`. -/
def convolution (w h : Nat) (img : Int → Int → K) (kw kh : Nat) (ker : Nat → Nat → K) (x y : Int) : K :=
  ∑ ky ∈ range kh, ∑ kx ∈ range kw,
    zeroExt w h img (x - (kx - (kw / 2 : Nat))) (y - (ky - (kh / 2 : Nat))) * ker kx ky

/-- Specification: the correlation sum. -/
def correlation (w h : Nat) (img : Int → Int → K) (kw kh : Nat) (ker : Nat → Nat → K) (x y : Int) : K :=
  ∑ ky ∈ range kh, ∑ kx ∈ range kw,
    zeroExt w h img (x + (kx - (kw / 2 : Nat))) (y + (ky - (kh / 2 : Nat))) * ker kx ky

/-- Kernel cells are stored at distinct places. -/
theorem dst_injective (p kc kw : Nat) (hk : kw ≤ p) (a b : Nat) (ha : a < kw) (hb : b < kw)
    (h : dst p kc a = dst p kc b) : a = b := by
  unfold dst at h
  have hp : (0 : Int) < p := by omega
  have := Int.emod_emod_of_dvd
  have h2 : ((a : Int) - kc + p - ((b : Int) - kc + p)) % p = 0 := Int.emod_eq_emod_iff_emod_sub_eq_zero.1 h
  have h3 : (a : Int) - kc + p - ((b : Int) - kc + p) = a - b := by ring
  rw [h3] at h2
  obtain ⟨q, hq⟩ := Int.dvd_of_emod_eq_zero h2
  have hq0 : q = 0 := by
    by_contra hne
    rcases lt_or_gt_of_ne hne with hlt | hgt
    · have : (p : Int) * q ≤ p * (-1) := Int.mul_le_mul_of_nonneg_left (by omega) hp.le
      omega
    · have : (p : Int) * 1 ≤ p * q := Int.mul_le_mul_of_nonneg_left (by omega) hp.le
      omega
  subst hq0
  omega

/-- One axis: the padded index hit by kernel cell `k` while computing output `x`. -/
theorem axis (w kw : Nat) (hw : 0 < w) (k : Nat) (hk : k < kw) (x : Int) (hx0 : 0 ≤ x) (hx1 : x < w) (i : Nat)
    (hi : i < w + kw - 1) :
    (dst (w + kw - 1) (kw / 2) k = (x - i) % ((w + kw - 1 : Nat) : Int)) ↔
      ((i : Int) = (x - (k - (kw / 2 : Nat))) % ((w + kw - 1 : Nat) : Int)) := by
  generalize hp : w + kw - 1 = p at *
  have hp0 : (0 : Int) < p := by omega
  unfold dst
  rw [Int.add_emod_right]
  have hi' : (i : Int) % p = i := Int.emod_eq_of_lt (by omega) (by omega)
  have e : ((i : Int) = (x - (k - (kw / 2 : Nat))) % (p : Int)) ↔
      ((i : Int) % p = (x - (k - (kw / 2 : Nat))) % (p : Int)) := by rw [hi']
  rw [e, Int.emod_eq_emod_iff_emod_sub_eq_zero, Int.emod_eq_emod_iff_emod_sub_eq_zero,
    show (k : Int) - (kw / 2 : Nat) - (x - i) = i - (x - (k - (kw / 2 : Nat))) by ring]

/-- The padded buffers are large enough: reading the image at the wrapped index equals the zero extension. -/
theorem no_alias (w kw : Nat) (hw : 0 < w) (k : Nat) (hk : k < kw) (x : Int) (hx0 : 0 ≤ x) (hx1 : x < w) :
    let r := (x - ((k : Int) - (kw / 2 : Nat))) % ((w + kw - 1 : Nat) : Int)
    let t := x - ((k : Int) - (kw / 2 : Nat))
    0 ≤ r ∧ r < (w + kw - 1 : Nat) ∧ ((0 ≤ t ∧ t < w) ↔ (r < w)) ∧ ((0 ≤ t ∧ t < w) → r = t) := by
  intro r t
  have hp0 : (0 : Int) < (w + kw - 1 : Nat) := by omega
  have r0 : 0 ≤ r := Int.emod_nonneg _ (by omega)
  have r1 : r < (w + kw - 1 : Nat) := Int.emod_lt_of_pos _ hp0
  have tl : -((kw : Int) - 1) ≤ t := by
    show -((kw : Int) - 1) ≤ x - ((k : Int) - (kw / 2 : Nat))
    omega
  have tu : t < ((w + kw - 1 : Nat) : Int) := by
    show x - ((k : Int) - (kw / 2 : Nat)) < ((w + kw - 1 : Nat) : Int)
    omega
  by_cases h0 : 0 ≤ t
  · have hr : r = t := Int.emod_eq_of_lt h0 tu
    exact ⟨r0, r1, by rw [hr]; exact ⟨fun h => h.2, fun h => ⟨h0, h⟩⟩, fun _ => hr⟩
  · have hr : r = t + (w + kw - 1 : Nat) := by
      have : (t + (w + kw - 1 : Nat)) % ((w + kw - 1 : Nat) : Int) = t + (w + kw - 1 : Nat) :=
        Int.emod_eq_of_lt (by omega) (by omega)
      rw [Int.add_emod_right] at this
      exact this
    refine ⟨r0, r1, ⟨fun h => absurd h.1 h0, fun h => ?_⟩, fun h => absurd h.1 h0⟩
    omega

/-- **C19.** The FFT path computes the linear convolution, without wrap-around, at every pixel of every image for
every kernel. -/
theorem C19_fft_is_convolution (w h : Nat) (img : Int → Int → K) (kw kh : Nat) (ker : Nat → Nat → K) (x y : Int)
    (hr : InRange w h x y) : fft w h img kw kh ker x y = convolution w h img kw kh ker x y := by
  obtain ⟨hx0, hx1, hy0, hy1⟩ := hr
  have hw : 0 < w := by omega
  have hh : 0 < h := by omega
  unfold fft convolution packKernel
  simp only
  simp_rw [Finset.mul_sum]
  -- bring the kernel sums outside
  have e1 : ∀ j ∈ range (h + kh - 1), ∀ i ∈ range (w + kw - 1),
      (∑ ky ∈ range kh, ∑ kx ∈ range kw, zeroExt w h img i j *
        (if dst (w + kw - 1) (kw / 2) kx = (x - i) % ((w + kw - 1 : Nat) : Int) ∧
            dst (h + kh - 1) (kh / 2) ky = (y - j) % ((h + kh - 1 : Nat) : Int) then ker kx ky else 0)) =
      ∑ ky ∈ range kh, ∑ kx ∈ range kw,
        (if ((j : Int) = (y - ((ky : Int) - (kh / 2 : Nat))) % ((h + kh - 1 : Nat) : Int)) then
          (if ((i : Int) = (x - ((kx : Int) - (kw / 2 : Nat))) % ((w + kw - 1 : Nat) : Int)) then
            zeroExt w h img i j * ker kx ky else 0) else 0) := by
    intro j hj i hi
    rw [mem_range] at hj hi
    refine sum_congr rfl fun ky hky => sum_congr rfl fun kx hkx => ?_
    rw [mem_range] at hky hkx
    have a := axis w kw hw kx hkx x hx0 hx1 i hi
    have b := axis h kh hh ky hky y hy0 hy1 j hj
    by_cases ha : (i : Int) = (x - ((kx : Int) - (kw / 2 : Nat))) % ((w + kw - 1 : Nat) : Int)
    · by_cases hb : (j : Int) = (y - ((ky : Int) - (kh / 2 : Nat))) % ((h + kh - 1 : Nat) : Int)
      · rw [if_pos ⟨a.2 ha, b.2 hb⟩, if_pos hb, if_pos ha]
      · rw [if_neg (fun h => hb (b.1 h.2)), if_neg hb, mul_zero]
    · rw [if_neg (fun h => ha (a.1 h.1)), if_neg ha, mul_zero]
      split <;> rfl
  rw [sum_congr rfl fun j hj => sum_congr rfl fun i hi => e1 j hj i hi]
  have e2 : (∑ j ∈ range (h + kh - 1), ∑ i ∈ range (w + kw - 1), ∑ ky ∈ range kh, ∑ kx ∈ range kw,
        (if ((j : Int) = (y - ((ky : Int) - (kh / 2 : Nat))) % ((h + kh - 1 : Nat) : Int)) then
          (if ((i : Int) = (x - ((kx : Int) - (kw / 2 : Nat))) % ((w + kw - 1 : Nat) : Int)) then
            zeroExt w h img i j * ker kx ky else 0) else 0)) =
      ∑ ky ∈ range kh, ∑ kx ∈ range kw, ∑ j ∈ range (h + kh - 1), ∑ i ∈ range (w + kw - 1),
        (if ((j : Int) = (y - ((ky : Int) - (kh / 2 : Nat))) % ((h + kh - 1 : Nat) : Int)) then
          (if ((i : Int) = (x - ((kx : Int) - (kw / 2 : Nat))) % ((w + kw - 1 : Nat) : Int)) then
            zeroExt w h img i j * ker kx ky else 0) else 0) := by
    rw [sum_congr rfl fun j _ => sum_comm (s := range (w + kw - 1)), sum_comm]
    refine sum_congr rfl fun ky _ => ?_
    rw [sum_congr rfl fun j _ => sum_comm (s := range (w + kw - 1)), sum_comm]
  rw [e2]
  refine sum_congr rfl fun ky hky => sum_congr rfl fun kx hkx => ?_
  rw [mem_range] at hky hkx
  obtain ⟨rx0, rx1, rx2, rx3⟩ := no_alias w kw hw kx hkx x hx0 hx1
  obtain ⟨ry0, ry1, ry2, ry3⟩ := no_alias h kh hh ky hky y hy0 hy1
  generalize hrx : (x - ((kx : Int) - (kw / 2 : Nat))) % ((w + kw - 1 : Nat) : Int) = r at *
  generalize hry : (y - ((ky : Int) - (kh / 2 : Nat))) % ((h + kh - 1 : Nat) : Int) = q at *
  rw [sum_eq_single_of_mem q.toNat (mem_range.2 (by omega))]
  · rw [sum_eq_single_of_mem r.toNat (mem_range.2 (by omega))]
    · rw [if_pos (by omega), if_pos (by omega)]
      congr 1
      rw [Int.toNat_of_nonneg rx0, Int.toNat_of_nonneg ry0]
      unfold zeroExt
      by_cases hA : (0 ≤ x - ((kx : Int) - (kw / 2 : Nat)) ∧ x - ((kx : Int) - (kw / 2 : Nat)) < w)
      · by_cases hB : (0 ≤ y - ((ky : Int) - (kh / 2 : Nat)) ∧ y - ((ky : Int) - (kh / 2 : Nat)) < h)
        · rw [rx3 hA, ry3 hB]
        · rw [if_neg (fun hh => hB (ry2.2 hh.2.2.2)), if_neg (fun hh => hB ⟨hh.2.2.1, hh.2.2.2⟩)]
      · rw [if_neg (fun hh => hA (rx2.2 hh.2.1)), if_neg (fun hh => hA ⟨hh.1, hh.2.1⟩)]
    · intro i _ hne
      rw [if_neg (show ¬ ((i : Int) = r) by omega)]
      split <;> rfl
  · intro j _ hne
    rw [sum_eq_zero]
    intro i _
    rw [if_neg (by omega)]

/-- The direct path computes the correlation. -/
theorem C19_direct_is_correlation (w h : Nat) (img : Int → Int → K) (kw kh : Nat) (ker : Nat → Nat → K) (x y : Int) :
    direct w h img kw kh ker x y = correlation w h img kw kh ker x y := by
  unfold direct correlation
  refine sum_congr rfl fun ky _ => sum_congr rfl fun kx _ => ?_
  congr 2 <;> ring

/-- C19 in full: below and above the size threshold, `convolve` is the same operation. -/
def C19_full (K : Type) [CommRing K] : Prop :=
  ∀ (w h : Nat) (img : Int → Int → K) (kw kh : Nat) (ker : Nat → Nat → K) (x y : Int), InRange w h x y →
    0 < kw → 0 < kh → convolve w h img kw kh ker x y = convolution w h img kw kh ker x y

/-- **C19 (violated).** A 3x1 kernel with its only weight on the right shifts the image the wrong way. -/
theorem C19_violated [Nontrivial K] : ¬ C19_full K := by
  intro h
  have := h 2 1 (fun x _ => if x = 0 then 1 else 0) 3 1 (fun kx _ => if kx = 2 then 1 else 0) 1 0
    (by unfold InRange; omega) (by decide) (by decide)
  simp only [convolve, direct, convolution, zeroExt, sum_range_succ, sum_range_zero] at this
  norm_num at this

/-- **C19 (partial).** For kernels of odd size that are symmetric under 180 degree rotation, both paths agree with the
mathematical convolution. Missing: asymmetric or even-sized kernels, where the two paths differ. -/
theorem C19_symmetric_partial (w h : Nat) (img : Int → Int → K) (a b : Nat) (ker : Nat → Nat → K) (x y : Int)
    (hr : InRange w h x y)
    (hsym : ∀ i j, i ≤ 2 * a → j ≤ 2 * b → ker (2 * a - i) (2 * b - j) = ker i j) :
    convolve w h img (2 * a + 1) (2 * b + 1) ker x y = convolution w h img (2 * a + 1) (2 * b + 1) ker x y := by
  have hcorr : correlation w h img (2 * a + 1) (2 * b + 1) ker x y =
      convolution w h img (2 * a + 1) (2 * b + 1) ker x y := by
    unfold correlation convolution
    rw [← sum_range_reflect]
    refine sum_congr rfl fun ky hky => ?_
    rw [← sum_range_reflect]
    refine sum_congr rfl fun kx hkx => ?_
    rw [mem_range] at hky hkx
    have ea : (2 * a + 1) / 2 = a := by omega
    have eb : (2 * b + 1) / 2 = b := by omega
    rw [ea, eb]
    have h1 : 2 * a + 1 - 1 - kx = 2 * a - kx := by omega
    have h2 : 2 * b + 1 - 1 - ky = 2 * b - ky := by omega
    rw [h1, h2, hsym kx ky (by omega) (by omega)]
    congr 2 <;> omega
  unfold convolve
  split
  · rename_i h1
    obtain ⟨ha, hb⟩ := h1
    have ha : a = 0 := by omega
    have hb : b = 0 := by omega
    subst ha hb
    obtain ⟨g1, g2, g3, g4⟩ := hr
    simp [convolution, zeroExt, g1, g2, g3, g4]
  · split
    · rw [C19_direct_is_correlation, hcorr]
    · exact C19_fft_is_convolution w h img _ _ ker x y hr

/-- Non-vacuity: a symmetric 3x3 kernel. -/
example : ∀ i j, i ≤ 2 * 1 → j ≤ 2 * 1 →
    (fun i j : Nat => ([[1, 2, 1], [2, 4, 2], [1, 2, 1]] : List (List Int))[j]![i]!) (2 * 1 - i) (2 * 1 - j) =
    (fun i j : Nat => ([[1, 2, 1], [2, 4, 2], [1, 2, 1]] : List (List Int))[j]![i]!) i j := by
  intro i j hi hj
  interval_cases i <;> interval_cases j <;> rfl
end Conv

end Huira.Image
