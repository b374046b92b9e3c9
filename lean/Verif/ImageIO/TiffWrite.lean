import Verif.ImageIO.TiffRead
/-!
# TIFF: writing and reading back (C105)
-/
set_option linter.unusedSimpArgs false
set_option linter.unusedVariables false
namespace Huira.ImageIO.Tiff
open Huira.Num Huira.ImageIO Huira.ImageIO.Convert
open Huira.ImageIO.Png (FV Img Bundle Hint pixelAt grid_get grid_length mapRes_choose img_get)

/-! ## Specification -/

/-- The two files have the same contents. -/
structure Same (f g : File) : Prop where
  w : g.w = f.w
  h : g.h = f.h
  spp : g.spp = f.spp
  bps : g.bps = f.bps
  fmt : g.fmt = f.fmt
  photo : g.photo = f.photo
  contig : g.contig = f.contig
  extra : g.extra = f.extra
  tile : g.tile = f.tile
  sample : ∀ x y c, x < f.w → y < f.h → c < f.spp → g.sample x y c = f.sample x y c

/-- libtiff reads back what it wrote (grey and RGB files in strips). -/
def LibOk (lib : Lib) : Prop := ∀ f, Plain f → f.tile = none → ∃ g, lib.openMem (lib.save f) = some g ∧ Same f g ∧ Readable g

/-- `v` is `u` clamped to [0, 1] and rounded down to a step (never more than one step and a hundredth below, never more than
a hundredth of a step above). -/
def Below (steps : ℚ) (u v : FV) : Prop := ∃ q q', u = .val q ∧ v = .val q' ∧
  -(101 / 100 / steps) ≤ q' - min 1 (max 0 q) ∧ q' - min 1 (max 0 q) ≤ 1 / 100 / steps

/-- Steps of a bit depth. -/
def steps (depth : Int) : ℚ := if depth = 16 then 65535 else 255

/-! ## Rounding facts -/

/-- Half a unit in the last place. -/
theorem half_ulp {fl : ℚ → ℚ} (h : IsRounding fl) (z : ℚ) (e : ℤ) (h1 : 2 ^ e ≤ z) (h2 : z ≤ 2 ^ (e + 1)) : |fl z - z| ≤ 2 ^ (e - 24) := by
  have hs : (0 : ℚ) < 2 ^ (e - 23) := by positivity
  have hr := abs_sub_round (z / 2 ^ (e - 23))
  have p1 : (2 : ℚ) ^ (e + 1) = 2 ^ 24 * 2 ^ (e - 23) := by
    rw [show (2 : ℚ) ^ 24 = 2 ^ (24 : ℤ) by norm_num, ← zpow_add₀ (by norm_num : (2 : ℚ) ≠ 0)]; congr 1; ring
  have hz0 : 0 ≤ z := le_trans (by positivity) h1
  have hz : z / 2 ^ (e - 23) ≤ 2 ^ 24 := by rw [div_le_iff₀ hs, ← p1]; exact h2
  have hz1 : 0 ≤ z / 2 ^ (e - 23) := by positivity
  have hn : |round (z / 2 ^ (e - 23))| ≤ 2 ^ 24 := by
    have a := abs_le.1 hr
    have b1 : ((round (z / 2 ^ (e - 23)) : ℤ) : ℚ) < ((2 ^ 24 + 1 : ℤ) : ℚ) := by push_cast; linarith
    have b2 : ((-1 : ℤ) : ℚ) < ((round (z / 2 ^ (e - 23)) : ℤ) : ℚ) := by push_cast; linarith
    have c1 := Int.cast_lt.1 b1
    have c2 := Int.cast_lt.1 b2
    rw [abs_le]; constructor <;> omega
  have := h.nearest z _ ⟨_, e - 23, hn, rfl⟩
  refine this.trans ?_
  have e1 : (round (z / 2 ^ (e - 23)) : ℚ) * 2 ^ (e - 23) - z = (round (z / 2 ^ (e - 23)) - z / 2 ^ (e - 23)) * 2 ^ (e - 23) := by
    field_simp
  rw [e1, abs_mul, abs_of_pos hs, abs_sub_comm]
  have p2 : (2 : ℚ) ^ (e - 24) = 1 / 2 * 2 ^ (e - 23) := by
    rw [show (1 : ℚ) / 2 = 2 ^ (-1 : ℤ) by norm_num, ← zpow_add₀ (by norm_num : (2 : ℚ) ≠ 0)]; congr 1; ring
  rw [p2]
  exact mul_le_mul_of_nonneg_right hr hs.le

/-- A representable number of a binade lies on its grid. -/
theorem rep_grid {y : ℚ} (hy : Representable y) (e : ℤ) (h : 2 ^ e ≤ y) : ∃ m : ℤ, y = m * 2 ^ (e - 23) := by
  obtain ⟨n, j, hn, rfl⟩ := hy
  rcases le_or_gt (e - 23) j with hj | hj
  · obtain ⟨d, hd⟩ : ∃ d : ℕ, j = e - 23 + d := ⟨(j - (e - 23)).toNat, by omega⟩
    refine ⟨n * 2 ^ d, ?_⟩
    rw [hd, zpow_add₀ (by norm_num : (2 : ℚ) ≠ 0), zpow_natCast]; push_cast; ring
  · -- then y ≤ 2^24 * 2^(e-24) = 2^e
    refine ⟨2 ^ 23, ?_⟩
    have h1 : (2 : ℚ) ^ j ≤ 2 ^ (e - 24) := zpow_le_zpow_right₀ (by norm_num) (by omega)
    have h2 : (n : ℚ) ≤ 2 ^ 24 := by
      have := (abs_le.1 hn).2
      exact_mod_cast this
    have h3 : (n : ℚ) * 2 ^ j ≤ 2 ^ 24 * 2 ^ (e - 24) := by
      refine (mul_le_mul_of_nonneg_right h2 (by positivity)).trans ?_
      exact mul_le_mul_of_nonneg_left h1 (by positivity)
    have h4 : (2 : ℚ) ^ 24 * 2 ^ (e - 24) = 2 ^ e := by
      rw [show (2 : ℚ) ^ 24 = 2 ^ (24 : ℤ) by norm_num, ← zpow_add₀ (by norm_num : (2 : ℚ) ≠ 0)]; congr 1; ring
    have h5 : (2 : ℚ) ^ 23 * 2 ^ (e - 23) = 2 ^ e := by
      rw [show (2 : ℚ) ^ 23 = 2 ^ (23 : ℤ) by norm_num, ← zpow_add₀ (by norm_num : (2 : ℚ) ≠ 0)]; congr 1; ring
    rw [show ((2 ^ 23 : ℤ) : ℚ) = (2 : ℚ) ^ 23 by norm_num, h5]
    linarith

/-- A product near an integer `v` from below is rounded up to it: `δ` is the distance, the grid below `v` has step `2^(e-23)`. -/
theorem round_up {fl : ℚ → ℚ} (h : IsRounding fl) (v : ℕ) (e : ℤ) (he : e ≤ 23) (hv : (2 : ℚ) ^ e < v) (hvr : v ≤ 2 ^ 24) (z δ : ℚ)
    (hz : v - δ ≤ z) (hδ : δ < 2 ^ (e - 24)) : (v : ℚ) ≤ fl z := by
  by_contra hc
  rw [not_le] at hc
  have hrep : Representable (v : ℚ) := rep_nat v hvr
  have hn := h.nearest z v hrep
  have hzv : z < v := by
    by_contra hk
    exact absurd (le_fl h hrep (not_lt.1 hk)) (not_le.2 hc)
  have n1 : |(v : ℚ) - z| ≤ δ := by rw [abs_of_pos (by linarith)]; linarith
  have n2 := (abs_le.1 (hn.trans n1)).1
  have half : (2 : ℚ) ^ (e - 24) = 1 / 2 * 2 ^ (e - 23) := by
    rw [show (1 : ℚ) / 2 = 2 ^ (-1 : ℤ) by norm_num, ← zpow_add₀ (by norm_num : (2 : ℚ) ≠ 0)]; congr 1; ring
  have hs : (0 : ℚ) < 2 ^ (e - 23) := by positivity
  -- the rounded value is at least one grid step below
  have gap : fl z ≤ v - 2 ^ (e - 23) := by
    obtain ⟨d, hd⟩ : ∃ d : ℕ, e - 23 = -(d : ℤ) := ⟨(23 - e).toNat, by omega⟩
    have hvg : (v : ℚ) = ((v * 2 ^ d : ℕ) : ℤ) * 2 ^ (e - 23) := by
      rw [hd, zpow_neg, zpow_natCast]; push_cast; field_simp
    rcases le_or_gt ((2 : ℚ) ^ e) (fl z) with hk | hk
    · obtain ⟨m, hm⟩ := rep_grid (h.repr z) e hk
      have : (m : ℚ) * 2 ^ (e - 23) < ((v * 2 ^ d : ℕ) : ℤ) * 2 ^ (e - 23) := by rw [← hm, ← hvg]; exact hc
      have : m < ((v * 2 ^ d : ℕ) : ℤ) := by exact_mod_cast lt_of_mul_lt_mul_right this hs.le
      have : m + 1 ≤ ((v * 2 ^ d : ℕ) : ℤ) := this
      have k : ((m + 1 : ℤ) : ℚ) * 2 ^ (e - 23) ≤ ((v * 2 ^ d : ℕ) : ℤ) * 2 ^ (e - 23) :=
        mul_le_mul_of_nonneg_right (by exact_mod_cast this) hs.le
      rw [← hvg] at k
      push_cast at k
      rw [hm]; linarith
    · -- v > 2^e, on the same grid
      have p1 : (2 : ℚ) ^ e = ((2 ^ 23 : ℤ) : ℚ) * 2 ^ (e - 23) := by
        rw [show ((2 ^ 23 : ℤ) : ℚ) = 2 ^ (23 : ℤ) by norm_num, ← zpow_add₀ (by norm_num : (2 : ℚ) ≠ 0)]; congr 1; ring
      have : ((2 ^ 23 : ℤ) : ℚ) * 2 ^ (e - 23) < ((v * 2 ^ d : ℕ) : ℤ) * 2 ^ (e - 23) := by rw [← p1, ← hvg]; exact hv
      have : (2 ^ 23 : ℤ) < ((v * 2 ^ d : ℕ) : ℤ) := by exact_mod_cast lt_of_mul_lt_mul_right this hs.le
      have k : ((2 ^ 23 + 1 : ℤ) : ℚ) * 2 ^ (e - 23) ≤ ((v * 2 ^ d : ℕ) : ℤ) * 2 ^ (e - 23) :=
        mul_le_mul_of_nonneg_right (by exact_mod_cast this) hs.le
      rw [← hvg] at k
      push_cast at k p1
      linarith
  linarith

/-- Between a power of two and the next, strictly above it. -/
theorem up_mid {fl : ℚ → ℚ} (h : IsRounding fl) (s k v : ℕ) (hk : k < s) (hs : s ≤ 16) (h1 : 2 ^ k < v) (h2 : v < 2 ^ (k + 1)) :
    (v : ℚ) ≤ fl (fl (v / (2 ^ s - 1)) * (2 ^ s - 1)) := by
  have hM : (0 : ℚ) < 2 ^ s - 1 := by
    have : (2 : ℚ) ^ 1 ≤ 2 ^ s := pow_le_pow_right₀ (by norm_num) (by omega)
    linarith
  have q1 : (2 : ℚ) ^ k < v := by exact_mod_cast h1
  have q2 : (v : ℚ) + 1 ≤ 2 ^ (k + 1) := by exact_mod_cast h2
  have q3 : (2 : ℚ) ^ (k + 1) ≤ 2 ^ s := pow_le_pow_right₀ (by norm_num) (by omega)
  have ek : (2 : ℚ) ^ ((k : ℤ) - s) * 2 ^ s = 2 ^ k := by
    rw [← zpow_natCast, ← zpow_natCast, ← zpow_add₀ (by norm_num : (2 : ℚ) ≠ 0)]; congr 1; ring
  have e1 : (2 : ℚ) ^ ((k : ℤ) - s) ≤ v / (2 ^ s - 1) := by
    rw [le_div_iff₀ hM]
    have : (0 : ℚ) < 2 ^ ((k : ℤ) - s) := by positivity
    calc (2 : ℚ) ^ ((k : ℤ) - s) * (2 ^ s - 1) = 2 ^ k - 2 ^ ((k : ℤ) - s) := by rw [mul_sub, ek, mul_one]
      _ ≤ v := by linarith
  have ek1 : (2 : ℚ) ^ ((k : ℤ) - s + 1) * 2 ^ s = 2 ^ (k + 1) := by
    rw [zpow_add₀ (by norm_num : (2 : ℚ) ≠ 0), zpow_one, pow_succ, ← ek]; ring
  have e2 : v / (2 ^ s - 1) ≤ (2 : ℚ) ^ ((k : ℤ) - s + 1) := by
    rw [div_le_iff₀ hM, mul_sub, ek1, mul_one]
    have : (2 : ℚ) ^ ((k : ℤ) - s + 1) ≤ 1 := by
      have : (2 : ℚ) ^ ((k : ℤ) - s + 1) ≤ 2 ^ (0 : ℤ) := zpow_le_zpow_right₀ (by norm_num) (by omega)
      simpa using this
    linarith
  have hu := abs_le.1 (half_ulp h (v / (2 ^ s - 1)) ((k : ℤ) - s) e1 e2)
  have hv24 : v ≤ 2 ^ 24 := by
    have : 2 ^ (k + 1) ≤ 2 ^ 24 := Nat.pow_le_pow_right (by norm_num) (by omega)
    omega
  refine round_up h v k (by omega) (by rw [zpow_natCast]; exact q1) hv24 _ (2 ^ ((k : ℤ) - s - 24) * (2 ^ s - 1)) ?_ ?_
  · have : v / (2 ^ s - 1) * (2 ^ s - 1) = (v : ℚ) := by field_simp
    have k2 := mul_le_mul_of_nonneg_right hu.1 hM.le
    rw [sub_mul, this] at k2
    linarith
  · have e3 : (2 : ℚ) ^ ((k : ℤ) - s - 24) * 2 ^ s = 2 ^ ((k : ℤ) - 24) := by
      rw [← zpow_natCast 2 s, ← zpow_add₀ (by norm_num : (2 : ℚ) ≠ 0)]; congr 1; ring
    have : (0 : ℚ) < 2 ^ ((k : ℤ) - s - 24) := by positivity
    rw [mul_sub, e3]; linarith

/-- A power of two, sixteen bits. -/
theorem up_pow16 {fl : ℚ → ℚ} (h : IsRounding fl) (k : ℕ) (hk : k < 16) :
    (2 : ℚ) ^ k ≤ fl (fl (2 ^ k / 65535) * 65535) := by
  have p : (0 : ℚ) < 2 ^ k := by positivity
  have hrep : Representable ((65537 : ℚ) / 2 ^ 32 * 2 ^ k) := by
    refine ⟨65537, (k : ℤ) - 32, by norm_num, ?_⟩
    rw [zpow_sub₀ (by norm_num : (2 : ℚ) ≠ 0), zpow_natCast]; norm_num; ring
  have hn := h.nearest (2 ^ k / 65535) _ hrep
  have e : |(65537 : ℚ) / 2 ^ 32 * 2 ^ k - 2 ^ k / 65535| = 2 ^ k / (2 ^ 32 * 65535) := by
    rw [show (65537 : ℚ) / 2 ^ 32 * 2 ^ k - 2 ^ k / 65535 = -(2 ^ k / (2 ^ 32 * 65535)) by field_simp; norm_num, abs_neg, abs_of_pos (by positivity)]
  rw [e] at hn
  have hn' := abs_le.1 hn
  have key := round_up h (2 ^ k) ((k : ℤ) - 1) (by omega) (by
      push_cast
      rw [zpow_sub₀ (by norm_num : (2 : ℚ) ≠ 0), zpow_natCast, zpow_one]; linarith)
    (by exact Nat.pow_le_pow_right (by norm_num) (by omega)) (fl (2 ^ k / 65535) * 65535) (2 ^ k / 2 ^ 32) (by
      push_cast
      have := mul_le_mul_of_nonneg_right hn'.1 (by norm_num : (0 : ℚ) ≤ 65535)
      rw [sub_mul, div_mul_cancel₀ _ (by norm_num : (65535 : ℚ) ≠ 0)] at this
      have e2 : -(2 ^ k / (2 ^ 32 * 65535)) * (65535 : ℚ) = -(2 ^ k / 2 ^ 32) := by field_simp
      rw [e2] at this
      linarith)
    (by
      have : (2 : ℚ) ^ ((k : ℤ) - 1 - 24) = 2 ^ k / 2 ^ 25 := by
        rw [show (k : ℤ) - 1 - 24 = k - 25 by ring, zpow_sub₀ (by norm_num : (2 : ℚ) ≠ 0), zpow_natCast]; norm_cast
      rw [this]
      apply div_lt_div_of_pos_left p (by norm_num) (by norm_num))
  exact_mod_cast key

/-- A power of two, eight bits: the quotient is rounded up. -/
theorem up_pow8 {fl : ℚ → ℚ} (h : IsRounding fl) (k : ℕ) (hk : k < 8) :
    (2 : ℚ) ^ k ≤ fl (fl (2 ^ k / 255) * 255) := by
  have p : (0 : ℚ) < 2 ^ k := by positivity
  have rep : Representable ((2 : ℚ) ^ k) := by
    have := rep_nat (2 ^ k) (Nat.pow_le_pow_right (by norm_num) (by omega))
    exact_mod_cast this
  have q : (2 : ℚ) ^ k / 255 ≤ fl (2 ^ k / 255) := by
    by_contra hc
    rw [not_le] at hc
    have e31 : ∀ m : ℤ, (m : ℚ) * 2 ^ ((k : ℤ) - 8 - 23) = m / 2 ^ 31 * 2 ^ k := by
      intro m
      rw [show (k : ℤ) - 8 - 23 = k - 31 by ring, zpow_sub₀ (by norm_num : (2 : ℚ) ≠ 0), zpow_natCast,
        show (2 : ℚ) ^ (31 : ℤ) = 2 ^ 31 by norm_cast]; ring
    have hrep : Representable ((8421505 : ℚ) / 2 ^ 31 * 2 ^ k) := by
      refine ⟨8421505, (k : ℤ) - 8 - 23, by norm_num, ?_⟩
      rw [e31]; push_cast; ring
    have hn := h.nearest (2 ^ k / 255) _ hrep
    have e8 : (2 : ℚ) ^ ((k : ℤ) - 8) = 2 ^ k / 256 := by
      rw [zpow_sub₀ (by norm_num : (2 : ℚ) ≠ 0), zpow_natCast]; norm_num
    have low : (2 : ℚ) ^ ((k : ℤ) - 8) ≤ fl (2 ^ k / 255) := by
      apply le_fl h ⟨1, (k : ℤ) - 8, by norm_num, by simp⟩
      rw [e8]; apply div_le_div_of_nonneg_left p.le (by norm_num) (by norm_num)
    obtain ⟨m, hm⟩ := rep_grid (h.repr _) _ low
    rw [e31] at hm
    have hm1 : m ≤ 8421504 := by
      by_contra hk2
      have : (8421505 : ℚ) ≤ m := by exact_mod_cast (by omega : (8421505 : ℤ) ≤ m)
      have : (8421505 : ℚ) / 2 ^ 31 * 2 ^ k ≤ fl (2 ^ k / 255) := by rw [hm]; gcongr
      have e : (2 : ℚ) ^ k / 255 < 8421505 / 2 ^ 31 * 2 ^ k := by
        rw [div_eq_mul_inv, mul_comm]; apply mul_lt_mul_of_pos_right _ p; norm_num
      linarith
    have hm2 : fl (2 ^ k / 255) ≤ 8421504 / 2 ^ 31 * 2 ^ k := by
      rw [hm]
      have : (m : ℚ) ≤ 8421504 := by exact_mod_cast hm1
      gcongr
    rw [abs_of_neg (by linarith)] at hn
    have e2 : (8421505 : ℚ) / 2 ^ 31 * 2 ^ k - 2 ^ k / 255 = (8421505 / 2 ^ 31 - 1 / 255) * 2 ^ k := by ring
    rw [e2, abs_of_pos (mul_pos (by norm_num) p)] at hn
    have e3 : (2 : ℚ) ^ k / 255 = 1 / 255 * 2 ^ k := by ring
    have : (1 / 255 - 8421504 / 2 ^ 31 : ℚ) * 2 ^ k ≤ (8421505 / 2 ^ 31 - 1 / 255) * 2 ^ k := by
      rw [e3] at hn hm2
      linarith
    have := le_of_mul_le_mul_right this p
    norm_num at this
  apply le_fl h rep
  rw [div_le_iff₀ (by norm_num)] at q
  exact q

/-- A level read and written again is at least itself before truncation. -/
theorem level_up {fl : ℚ → ℚ} (h : IsRounding fl) (M : ℕ) (hM : M = 255 ∨ M = 65535) (v : ℕ) (hv : v ≤ M) :
    (v : ℚ) ≤ fl (fl (v / M) * M) := by
  rcases Nat.eq_zero_or_pos v with rfl | h0
  · simp [fl0 h]
  rcases Nat.eq_or_lt_of_le hv with rfl | hlt
  · have : (0 : ℚ) < v := by exact_mod_cast h0
    rw [div_self (by linarith), fl1 h, one_mul, h.exact (rep_nat v (by rcases hM with rfl | rfl <;> norm_num))]
  obtain ⟨k, hk⟩ : ∃ k, k = Nat.log 2 v := ⟨_, rfl⟩
  have k1 : 2 ^ k ≤ v := by rw [hk]; exact Nat.pow_log_le_self 2 (by omega)
  have k2 : v < 2 ^ (k + 1) := by rw [hk]; exact Nat.lt_pow_succ_log_self (by norm_num) v
  have lt_of : ∀ s, v < 2 ^ s → k < s := by
    intro s hs
    by_contra hc
    have : 2 ^ s ≤ 2 ^ k := Nat.pow_le_pow_right (by norm_num) (by omega)
    omega
  rcases hM with rfl | rfl
  · have ks : k < 8 := lt_of 8 (by omega)
    rcases Nat.eq_or_lt_of_le k1 with e | e
    · have := up_pow8 h k ks
      rw [← e]; push_cast; exact this
    · have := up_mid h 8 k v ks (by norm_num) e k2
      norm_num at this ⊢; exact this
  · have ks : k < 16 := lt_of 16 (by omega)
    rcases Nat.eq_or_lt_of_le k1 with e | e
    · have := up_pow16 h k ks
      rw [← e]; push_cast; exact this
    · have := up_mid h 16 k v ks (by norm_num) e k2
      norm_num at this ⊢; exact this

/-! ## Levels -/

/-- The level written for a number, and what it is read back as. -/
theorem toLevel_ok {fl : ℚ → ℚ} (h : IsRounding fl) (M : ℕ) (hM : M = 255 ∨ M = 65535) (q : ℚ) :
    ∃ v : ℕ, toLevel fl M (.val q) = .ok v ∧ v ≤ M ∧ -(101 / 100 / M) ≤ fl ((v : ℚ) / M) - min 1 (max 0 q) ∧
      fl ((v : ℚ) / M) - min 1 (max 0 q) ≤ 1 / 100 / M := by
  have hM0 : (0 : ℚ) < M := by rcases hM with rfl | rfl <;> norm_num
  have hM1 : (M : ℚ) ≤ 65535 := by rcases hM with rfl | rfl <;> norm_num
  have hrep : Representable (M : ℚ) := rep_nat M (by rcases hM with rfl | rfl <;> norm_num)
  obtain ⟨c, hc⟩ : ∃ c : ℚ, c = if fl (q * M) < 0 then (0 : ℚ) else if (M : ℚ) < fl (q * M) then (M : ℚ) else fl (q * M) := ⟨_, rfl⟩
  obtain ⟨m, hm⟩ : ∃ m : ℚ, m = min 1 (max 0 q) := ⟨_, rfl⟩
  have hm01 : 0 ≤ m ∧ m ≤ 1 := by rw [hm]; exact ⟨le_min (by norm_num) (le_max_left _ _), min_le_left _ _⟩
  -- the clamped product is near the clamped value
  have hcm : |c - m * M| ≤ M / 2 ^ 24 := by
    rcases lt_or_ge q 0 with h0 | h0
    · have : fl (q * M) ≤ 0 := fl_le h rep0 (mul_nonpos_of_nonpos_of_nonneg h0.le hM0.le)
      have hc0 : c = 0 := by
        rw [hc]; split_ifs with a b
        · rfl
        · linarith
        · linarith
      have : m = 0 := by rw [hm, max_eq_left h0.le]; norm_num
      rw [hc0, this]; simp; positivity
    · have g0 : 0 ≤ fl (q * M) := le_fl h rep0 (mul_nonneg h0 hM0.le)
      rcases lt_or_ge 1 q with h1 | h1
      · have : (M : ℚ) ≤ fl (q * M) := le_fl h hrep (by nlinarith)
        have hcM : c = M := by
          rw [hc, if_neg (not_lt.2 g0)]; split_ifs with b
          · rfl
          · linarith
        have : m = 1 := by rw [hm, max_eq_right h0, min_eq_left h1.le]
        rw [hcM, this]; simp; positivity
      · have g1 : fl (q * M) ≤ M := fl_le h hrep (by nlinarith)
        have hcM : c = fl (q * M) := by rw [hc, if_neg (not_lt.2 g0), if_neg (not_lt.2 g1)]
        have hmq : m = q := by rw [hm, max_eq_right h0, min_eq_right h1]
        rw [hcM, hmq]
        refine (h.rel _).trans ?_
        rw [abs_of_nonneg (mul_nonneg h0 hM0.le)]
        gcongr; nlinarith
  have hc0 : 0 ≤ c := by rw [hc]; split_ifs with a b <;> linarith
  have hcM : c ≤ M := by rw [hc]; split_ifs with a b <;> linarith
  have hf0 : 0 ≤ ⌊c⌋ := Int.floor_nonneg.2 hc0
  have f1 := Int.floor_le c
  have f2 := Int.lt_floor_add_one c
  have hfM : ⌊c⌋ ≤ (M : ℤ) := by
    have : ((⌊c⌋ : ℤ) : ℚ) ≤ ((M : ℤ) : ℚ) := by push_cast; linarith
    exact_mod_cast this
  refine ⟨⌊c⌋.toNat, by simp only [toLevel, ← hc], by omega, ?_⟩
  have hv : ((⌊c⌋.toNat : ℕ) : ℚ) = (⌊c⌋ : ℚ) := by
    have : ((⌊c⌋.toNat : ℕ) : ℤ) = ⌊c⌋ := Int.toNat_of_nonneg hf0
    exact_mod_cast this
  rw [hv, ← hm]
  have hvM : (⌊c⌋ : ℚ) ≤ M := by exact_mod_cast hfM
  have hv0 : (0 : ℚ) ≤ ⌊c⌋ := by exact_mod_cast hf0
  have e := h.rel ((⌊c⌋ : ℚ) / M)
  rw [abs_of_nonneg (by positivity : (0 : ℚ) ≤ (⌊c⌋ : ℚ) / M)] at e
  have e' : |fl ((⌊c⌋ : ℚ) / M) - (⌊c⌋ : ℚ) / M| ≤ 1 / 2 ^ 24 := by
    refine e.trans ?_
    have : (⌊c⌋ : ℚ) / M ≤ 1 := div_le_one_of_le₀ hvM hM0.le
    gcongr
  have e2 := abs_le.1 e'
  have c2 := abs_le.1 hcm
  have k : (⌊c⌋ : ℚ) / M * M = ⌊c⌋ := by field_simp
  have d : (M : ℚ) / 2 ^ 24 ≤ 1 / 200 := by rw [div_le_iff₀ (by norm_num)]; norm_num; linarith
  generalize fl ((⌊c⌋ : ℚ) / M) = z at e2 ⊢
  have z1 : (z - (⌊c⌋ : ℚ) / M) * M ≤ 1 / 200 := by
    calc (z - (⌊c⌋ : ℚ) / M) * M ≤ 1 / 2 ^ 24 * M := mul_le_mul_of_nonneg_right e2.2 hM0.le
      _ = M / 2 ^ 24 := by ring
      _ ≤ _ := d
  have z2 : -(1 / 200) ≤ (z - (⌊c⌋ : ℚ) / M) * M := by
    calc -(1 / 200) ≤ -(M / 2 ^ 24 : ℚ) := by linarith
      _ = -(1 / 2 ^ 24) * M := by ring
      _ ≤ _ := mul_le_mul_of_nonneg_right e2.1 hM0.le
  rw [sub_mul, k] at z1 z2
  constructor
  · rw [← neg_div, div_le_iff₀ hM0, sub_mul]; linarith
  · rw [le_div_iff₀ hM0, sub_mul]; linarith

/-- A value already on a level is written as that level. -/
theorem toLevel_exact {fl : ℚ → ℚ} (h : IsRounding fl) (M : ℕ) (hM : M = 255 ∨ M = 65535) (v : ℕ) (hv : v ≤ M) :
    toLevel fl M (.val (fl ((v : ℚ) / M))) = .ok v := by
  have hM0 : (0 : ℚ) < M := by rcases hM with rfl | rfl <;> norm_num
  have hM1 : (M : ℚ) ≤ 65535 := by rcases hM with rfl | rfl <;> norm_num
  have hrep : Representable (M : ℚ) := rep_nat M (by rcases hM with rfl | rfl <;> norm_num)
  have up := level_up h M hM v hv
  have hv0 : (0 : ℚ) ≤ v := by positivity
  have hx1 : fl ((v : ℚ) / M) ≤ 1 := fl_le h rep1 (div_le_one_of_le₀ (by exact_mod_cast hv) hM0.le)
  have hx0 : 0 ≤ fl ((v : ℚ) / M) := le_fl h rep0 (by positivity)
  have hM' : fl (fl ((v : ℚ) / M) * M) ≤ M := fl_le h hrep (by nlinarith)
  have near : fl (fl ((v : ℚ) / M) * M) < v + 1 := by
    have a := (abs_le.1 (h.rel ((v : ℚ) / M))).2
    rw [abs_of_nonneg (by positivity : (0 : ℚ) ≤ (v : ℚ) / M)] at a
    have b := (abs_le.1 (fl_small h (fl ((v : ℚ) / M) * M) (by rw [abs_of_nonneg (by positivity)]; nlinarith))).2
    have c : ((v : ℚ) / M) * M = v := by field_simp
    have d : fl ((v : ℚ) / M) * M ≤ v + v / 2 ^ 24 := by
      have : fl ((v : ℚ) / M) ≤ (v : ℚ) / M + (v : ℚ) / M / 2 ^ 24 := by linarith
      calc fl ((v : ℚ) / M) * M ≤ ((v : ℚ) / M + (v : ℚ) / M / 2 ^ 24) * M := mul_le_mul_of_nonneg_right this hM0.le
        _ = v + v / 2 ^ 24 := by rw [add_mul, c, div_mul_eq_mul_div, c]
    have e : (v : ℚ) / 2 ^ 24 ≤ 1 / 4 := by
      rw [div_le_iff₀ (by norm_num)]
      have : (v : ℚ) ≤ M := by exact_mod_cast hv
      have e4 : (1 / 4 * 2 ^ 24 : ℚ) = 4194304 := by norm_num
      rw [e4]; linarith
    linarith
  simp only [toLevel]
  rw [if_neg (by linarith), if_neg (not_lt.2 hM')]
  have : ⌊fl (fl ((v : ℚ) / M) * M)⌋ = (v : ℤ) := by
    rw [Int.floor_eq_iff]; push_cast; exact ⟨up, near⟩
  rw [this]; simp

/-! ## The file written -/

/-- Every component is a number. -/
def NoNaN (i : Img (FV × FV × FV)) : Prop := ∀ p ∈ i.data, p.1 ≠ .nan ∧ p.2.1 ≠ .nan ∧ p.2.2 ≠ .nan

theorem writeRGB_ok {fl : ℚ → ℚ} (lib : Lib) (M : ℕ) (R : FV → ℕ → Prop) (b : Bundle (FV × FV × FV))
    (hd : (b.depth = 8 ∧ M = 255) ∨ (b.depth = 16 ∧ M = 65535))
    (hR : ∀ v, (∃ p ∈ b.image.data, v = p.1 ∨ v = p.2.1 ∨ v = p.2.2) → ∃ n, toLevel fl M v = .ok n ∧ n ≤ M ∧ R v n)
    (hw3 : b.image.w * 3 < 4294967296) (hwf : b.image.WF) :
    ∃ f, writeRGB fl lib b = .ok (lib.save f) ∧ f.w = b.image.w ∧ f.h = b.image.h ∧ f.spp = 3 ∧ (f.bps : ℤ) = b.depth ∧ f.fmt = 1 ∧ f.photo = 2 ∧
      f.contig = true ∧ f.extra = [] ∧ f.tile = none ∧
      ∀ x y, x < f.w → y < f.h → ∃ p, b.image.data[y * f.w + x]? = some p ∧ R p.1 (f.sample x y 0) ∧ R p.2.1 (f.sample x y 1) ∧
        R p.2.2 (f.sample x y 2) ∧ ∀ c, f.sample x y c ≤ M := by
  have hM : (if b.depth = 8 then 255 else 65535) = M := by rcases hd with h | h <;> simp [h.1, h.2]
  have hpix : ∀ q ∈ grid b.image.w b.image.h, ∃ l, writePixel fl M (b.depth.toNat / 8) b.image q.1 q.2 = .ok l ∧
      ∃ p r g bl, b.image.data[q.2 * b.image.w + q.1]? = some p ∧ R p.1 r ∧ R p.2.1 g ∧ R p.2.2 bl ∧ r ≤ M ∧ g ≤ M ∧ bl ≤ M ∧ l = [r, g, bl] := by
    intro q hq
    obtain ⟨hx, hy⟩ := (mem_grid _ _ _).1 hq
    obtain ⟨p, hp, hpm⟩ := img_get b.image hwf q.1 q.2 hx hy
    obtain ⟨r, hr, hr', Rr⟩ := hR p.1 ⟨p, hpm, Or.inl rfl⟩
    obtain ⟨g, hg, hg', Rg⟩ := hR p.2.1 ⟨p, hpm, Or.inr (Or.inl rfl)⟩
    obtain ⟨bl, hb, hb', Rb⟩ := hR p.2.2 ⟨p, hpm, Or.inr (Or.inr rfl)⟩
    refine ⟨[r, g, bl], ?_, p, r, g, bl, hp, Rr, Rg, Rb, hr', hg', hb', rfl⟩
    unfold writePixel levels
    simp only [pixelAt, hp, hr, hg, hb, Res.ok_bind]
    rw [if_pos]
    rw [Nat.mod_eq_of_lt (by omega), Nat.mod_eq_of_lt hw3, ← Nat.add_mul]
    exact Nat.mul_le_mul_right _ (by omega)
  obtain ⟨rows, hrows, hlen, hall⟩ := mapRes_choose _ _ _ hpix
  refine ⟨written b.image.w b.image.h 3 2 b.depth.toNat rows, ?_, rfl, rfl, rfl, ?_, rfl, rfl, rfl, rfl, rfl, ?_⟩
  · unfold writeRGB
    rw [if_neg (by rcases hd with h | h <;> simp [h.1])]
    simp only [hM]
    rw [hrows]; rfl
  · show ((b.depth.toNat : ℕ) : ℤ) = _
    rcases hd with h | h <;> simp [h.1]
  · intro x y hx hy
    obtain ⟨l, h1, p, r, g, bl, hp, Rr, Rg, Rb, r', g', b', rfl⟩ := hall (y * b.image.w + x) (x, y) (grid_get _ _ x y hx hy)
    have hs : ∀ c, (written b.image.w b.image.h 3 2 b.depth.toNat rows).sample x y c = ([r, g, bl][c]?).getD 0 := by
      intro c; simp only [written, h1, Option.getD_some]
    refine ⟨p, hp, by rw [hs]; exact Rr, by rw [hs]; exact Rg, by rw [hs]; exact Rb, ?_⟩
    intro c
    rw [hs]
    match c with
    | 0 => exact r'
    | 1 => exact g'
    | 2 => exact b'
    | c + 3 => simp

theorem writeMono_ok {fl : ℚ → ℚ} (lib : Lib) (M : ℕ) (R : FV → ℕ → Prop) (b : Bundle FV)
    (hd : (b.depth = 8 ∧ M = 255) ∨ (b.depth = 16 ∧ M = 65535))
    (hR : ∀ v ∈ b.image.data, ∃ n, toLevel fl M v = .ok n ∧ n ≤ M ∧ R v n) (hwf : b.image.WF) :
    ∃ f, writeMono fl lib b = .ok (lib.save f) ∧ f.w = b.image.w ∧ f.h = b.image.h ∧ f.spp = 1 ∧ (f.bps : ℤ) = b.depth ∧ f.fmt = 1 ∧ f.photo = 1 ∧
      f.contig = true ∧ f.extra = [] ∧ f.tile = none ∧
      ∀ x y, x < f.w → y < f.h → ∃ p, b.image.data[y * f.w + x]? = some p ∧ R p (f.sample x y 0) ∧ ∀ c, f.sample x y c ≤ M := by
  have hM : (if b.depth = 8 then 255 else 65535) = M := by rcases hd with h | h <;> simp [h.1, h.2]
  have hpix : ∀ q ∈ grid b.image.w b.image.h, ∃ l, (pixelAt b.image q.1 q.2 >>= fun v => toLevel fl M v >>= fun n => Res.ok [n]) = .ok l ∧
      ∃ p r, b.image.data[q.2 * b.image.w + q.1]? = some p ∧ R p r ∧ r ≤ M ∧ l = [r] := by
    intro q hq
    obtain ⟨hx, hy⟩ := (mem_grid _ _ _).1 hq
    obtain ⟨p, hp, hpm⟩ := img_get b.image hwf q.1 q.2 hx hy
    obtain ⟨r, hr, hr', Rr⟩ := hR p hpm
    refine ⟨[r], ?_, p, r, hp, Rr, hr', rfl⟩
    simp only [pixelAt, hp, hr, Res.ok_bind]
  obtain ⟨rows, hrows, hlen, hall⟩ := mapRes_choose _ _ _ hpix
  refine ⟨written b.image.w b.image.h 1 1 b.depth.toNat rows, ?_, rfl, rfl, rfl, ?_, rfl, rfl, rfl, rfl, rfl, ?_⟩
  · unfold writeMono
    rw [if_neg (by rcases hd with h | h <;> simp [h.1])]
    simp only [hM]
    rw [hrows]; rfl
  · show ((b.depth.toNat : ℕ) : ℤ) = _
    rcases hd with h | h <;> simp [h.1]
  · intro x y hx hy
    obtain ⟨l, h1, p, r, hp, Rr, r', rfl⟩ := hall (y * b.image.w + x) (x, y) (grid_get _ _ x y hx hy)
    have hs : ∀ c, (written b.image.w b.image.h 1 1 b.depth.toNat rows).sample x y c = ([r][c]?).getD 0 := by
      intro c; simp only [written, h1, Option.getD_some]
    refine ⟨p, hp, by rw [hs]; exact Rr, ?_⟩
    intro c
    rw [hs]
    match c with
    | 0 => exact r'
    | c + 1 => simp

/-- The file written and opened again. -/
theorem reopen (lib : Lib) (hl : LibOk lib) (f : File) (M : ℕ) (hd : (f.bps = 8 ∧ M = 255) ∨ (f.bps = 16 ∧ M = 65535)) (hw : 0 < f.w) (hh : 0 < f.h)
    (hs : f.w * f.h < 2147483648) (hw6 : f.w * 6 < 2147483648) (hfmt : f.fmt = 1) (hp : f.photo = 2 ∧ f.spp = 3 ∨ f.photo = 1 ∧ f.spp = 1)
    (hct : f.contig = true) (he : f.extra = []) (ht : f.tile = none) (hsm : ∀ x y, x < f.w → y < f.h → ∀ c, f.sample x y c ≤ M) :
    ∃ g, lib.openMem (lib.save f) = some g ∧ Same f g ∧ Readable g ∧ Plain g ∧ Fits g := by
  have h2M : 2 ^ f.bps = M + 1 := by rcases hd with h | h <;> rw [h.1, h.2] <;> norm_num
  have hform : (f.fmt = 1 ∧ (f.bps = 8 ∨ f.bps = 16 ∨ f.bps = 32)) ∨ (f.fmt = 3 ∧ f.bps = 32) := by omega
  have hpl : Plain f := by
    refine ⟨⟨hw, hh, hform, by omega, by omega, ?_, by rw [ht]; simp⟩, by omega, Or.inl he, ?_⟩
    · intro x y c hx hy _
      have := hsm x y hx hy c
      omega
    · rw [he]; rcases hp with h | h <;> simp [h.1, h.2, colours]
  obtain ⟨g, h1, h2, h3⟩ := hl f hpl ht
  refine ⟨g, h1, h2, h3, ?_, ?_⟩
  · refine ⟨⟨by rw [h2.w]; exact hw, by rw [h2.h]; exact hh, by rw [h2.fmt, h2.bps]; exact hform, by rw [h2.photo]; omega, by rw [h2.spp]; omega, ?_,
      by rw [h2.tile, ht]; simp⟩, by rw [h2.photo]; omega, by rw [h2.extra]; exact Or.inl he, by rw [h2.spp, h2.photo, h2.extra]; exact hpl.spp⟩
    intro x y c hx hy hc
    rw [h2.w] at hx; rw [h2.h] at hy; rw [h2.spp] at hc
    rw [h2.sample x y c hx hy hc, h2.bps]
    exact hpl.samples x y c hx hy hc
  · refine ⟨by rw [h2.w, h2.h]; exact hs, ?_, by rw [h2.tile, ht]; simp⟩
    unfold scanlineSize File.blocks File.perPixel
    rw [h2.contig, h2.photo, h2.spp, h2.w, h2.bps, hct]
    rcases hp with h | h <;> rcases hd with k | k <;> simp [h.1, h.2, k.1] <;> omega

/-- Writing an RGB image and reading it back, with the levels related to the values by `R`. -/
theorem back_rgb {fl : ℚ → ℚ} (hfl : IsRounding fl) (lib : Lib) (hl : LibOk lib) (M : ℕ) (R : FV → ℕ → Prop) (b : Bundle (FV × FV × FV))
    (hd : (b.depth = 8 ∧ M = 255) ∨ (b.depth = 16 ∧ M = 65535))
    (hR : ∀ v, (∃ p ∈ b.image.data, v = p.1 ∨ v = p.2.1 ∨ v = p.2.2) → ∃ n, toLevel fl M v = .ok n ∧ n ≤ M ∧ R v n)
    (hw : 0 < b.image.w) (hh : 0 < b.image.h) (hs : b.image.w * b.image.h < 2147483648) (hw6 : b.image.w * 6 < 2147483648) (hwf : b.image.WF) (ra : Bool) :
    ∃ d b', writeRGB fl lib b = .ok d ∧ readRGB fl lib d ra = .ok b' ∧ b'.image.w = b.image.w ∧ b'.image.h = b.image.h ∧
      b'.image.data.length = b.image.w * b.image.h ∧ b'.alpha = ⟨0, 0, []⟩ ∧ b'.hint = .sRGB ∧ b'.gamma = 1 ∧ b'.depth = 8 ∧
      ∀ x y, x < b.image.w → y < b.image.h → ∃ p r g bl, b.image.data[y * b.image.w + x]? = some p ∧ R p.1 r ∧ R p.2.1 g ∧ R p.2.2 bl ∧
        b'.image.data[y * b.image.w + x]? = some (.val (fl ((r : ℚ) / M)), .val (fl ((g : ℚ) / M)), .val (fl ((bl : ℚ) / M))) := by
  obtain ⟨f, f1, f2, f3, f4, f5, f6, f7, f8, f9, f10, f11⟩ := writeRGB_ok lib M R b hd hR (by omega) hwf
  obtain ⟨g, g1, g2, g3, g4, g5⟩ := reopen lib hl f M (by rcases hd with h | h <;> omega) (by omega) (by omega) (by rw [f2, f3]; exact hs) (by omega) f6
    (Or.inl ⟨f7, f4⟩) f8 f9 f10 (fun x y hx hy c => by obtain ⟨p, _, _, _, _, k⟩ := f11 x y hx hy; exact k c)
  obtain ⟨b', k1, k2, k3, k4, k5, k6, k7, k8, k9, k10⟩ := C105_read_partial hfl lib (lib.save f) g g1 g4 g5 g3 ra
  refine ⟨_, b', f1, k1, by rw [k2, g2.w, f2], by rw [k3, g2.h, f3], by rw [k4, g2.w, g2.h, f2, f3], k7 (Or.inl (by rw [g2.extra, f9])), k8, k9, k10, ?_⟩
  intro x y hx hy
  have hx' : x < f.w := by omega
  have hy' : y < f.h := by omega
  obtain ⟨p, p1, p2, p3, p4, _⟩ := f11 x y hx' hy'
  have := k5 x y (by rw [g2.w]; exact hx') (by rw [g2.h]; exact hy')
  rw [g2.photo, f7, if_pos rfl, g2.w, f2] at this
  rw [f2] at p1
  refine ⟨p, _, _, _, p1, p2, p3, p4, ?_⟩
  rw [this]
  have h2M : (2 : ℚ) ^ f.bps - 1 = M := by
    rcases hd with h | h
    · have : f.bps = 8 := by omega
      rw [this, h.2]; norm_num
    · have : f.bps = 16 := by omega
      rw [this, h.2]; norm_num
  have val : ∀ c, c < 3 → shown fl lib g x y c = .val (fl ((f.sample x y c : ℚ) / M)) := by
    intro c hc
    unfold shown value
    rw [g2.photo, f7, g2.fmt, f6, g2.bps, h2M, g2.sample x y c hx' hy' (by omega)]
    simp
  rw [val 0 (by norm_num), val 1 (by norm_num), val 2 (by norm_num)]

/-- The same for mono images. -/
theorem back_mono {fl : ℚ → ℚ} (hfl : IsRounding fl) (lib : Lib) (hl : LibOk lib) (M : ℕ) (R : FV → ℕ → Prop) (b : Bundle FV)
    (hd : (b.depth = 8 ∧ M = 255) ∨ (b.depth = 16 ∧ M = 65535))
    (hR : ∀ v ∈ b.image.data, ∃ n, toLevel fl M v = .ok n ∧ n ≤ M ∧ R v n)
    (hw : 0 < b.image.w) (hh : 0 < b.image.h) (hs : b.image.w * b.image.h < 2147483648) (hw6 : b.image.w * 6 < 2147483648) (hwf : b.image.WF) (ra : Bool) :
    ∃ d b', writeMono fl lib b = .ok d ∧ readMono fl lib d ra = .ok b' ∧ b'.image.w = b.image.w ∧ b'.image.h = b.image.h ∧
      b'.image.data.length = b.image.w * b.image.h ∧ b'.alpha = ⟨0, 0, []⟩ ∧ b'.hint = .sRGB ∧ b'.gamma = 1 ∧ b'.depth = 8 ∧
      ∀ x y, x < b.image.w → y < b.image.h → ∃ p r, b.image.data[y * b.image.w + x]? = some p ∧ R p r ∧
        b'.image.data[y * b.image.w + x]? = some (.val (fl ((r : ℚ) / M))) := by
  obtain ⟨f, f1, f2, f3, f4, f5, f6, f7, f8, f9, f10, f11⟩ := writeMono_ok lib M R b hd hR hwf
  obtain ⟨g, g1, g2, g3, g4, g5⟩ := reopen lib hl f M (by rcases hd with h | h <;> omega) (by omega) (by omega) (by rw [f2, f3]; exact hs) (by omega) f6
    (Or.inr ⟨f7, f4⟩) f8 f9 f10 (fun x y hx hy c => by obtain ⟨p, _, _, k⟩ := f11 x y hx hy; exact k c)
  obtain ⟨b', k1, k2, k3, k4, k5, _, k6, k7, k8, k9, k10⟩ := C105_read_mono_partial hfl lib (lib.save f) g g1 g4 g5 g3 ra
  refine ⟨_, b', f1, k1, by rw [k2, g2.w, f2], by rw [k3, g2.h, f3], by rw [k4, g2.w, g2.h, f2, f3], k7 (Or.inl (by rw [g2.extra, f9])), k8, k9, k10, ?_⟩
  intro x y hx hy
  have hx' : x < f.w := by omega
  have hy' : y < f.h := by omega
  obtain ⟨p, p1, p2, _⟩ := f11 x y hx' hy'
  have := k5 (by rw [g2.photo, f7]; norm_num) x y (by rw [g2.w]; exact hx') (by rw [g2.h]; exact hy')
  rw [g2.w, f2] at this
  rw [f2] at p1
  refine ⟨p, _, p1, p2, ?_⟩
  rw [this]
  have h2M : (2 : ℚ) ^ f.bps - 1 = M := by
    rcases hd with h | h
    · have : f.bps = 8 := by omega
      rw [this, h.2]; norm_num
    · have : f.bps = 16 := by omega
      rw [this, h.2]; norm_num
  unfold shown value
  rw [g2.photo, f7, g2.fmt, f6, g2.bps, h2M, g2.sample x y 0 hx' hy' (by omega)]
  simp

theorem depth_M (d : Int) (hd : d = 8 ∨ d = 16) : ∃ M : ℕ, ((d = 8 ∧ M = 255) ∨ (d = 16 ∧ M = 65535)) ∧ (M = 255 ∨ M = 65535) ∧ steps d = M := by
  rcases hd with h | h
  · exact ⟨255, Or.inl ⟨h, rfl⟩, Or.inl rfl, by simp [steps, h]⟩
  · exact ⟨65535, Or.inr ⟨h, rfl⟩, Or.inr rfl, by simp [steps, h]⟩

/-- **C105 (partial).**  An RGB image without NaN written as TIFF and read back has the same size, and every component is the
original clamped to [0, 1] and rounded down to a step. -/
theorem C105_roundtrip_partial {fl : ℚ → ℚ} (hfl : IsRounding fl) (lib : Lib) (hl : LibOk lib) (b : Bundle (FV × FV × FV))
    (hd : b.depth = 8 ∨ b.depth = 16) (hn : NoNaN b.image) (hw : 0 < b.image.w) (hh : 0 < b.image.h) (hs : b.image.w * b.image.h < 2147483648)
    (hw6 : b.image.w * 6 < 2147483648) (hwf : b.image.WF) (ra : Bool) :
    ∃ d b', writeRGB fl lib b = .ok d ∧ readRGB fl lib d ra = .ok b' ∧ b'.image.w = b.image.w ∧ b'.image.h = b.image.h ∧
      b'.image.data.length = b.image.w * b.image.h ∧
      ∀ x y, x < b.image.w → y < b.image.h → ∃ p p', b.image.data[y * b.image.w + x]? = some p ∧ b'.image.data[y * b.image.w + x]? = some p' ∧
        Below (steps b.depth) p.1 p'.1 ∧ Below (steps b.depth) p.2.1 p'.2.1 ∧ Below (steps b.depth) p.2.2 p'.2.2 := by
  obtain ⟨M, hM, hM', hst⟩ := depth_M b.depth hd
  have hR : ∀ v, (∃ p ∈ b.image.data, v = p.1 ∨ v = p.2.1 ∨ v = p.2.2) → ∃ n, toLevel fl M v = .ok n ∧ n ≤ M ∧
      (fun (v : FV) (n : ℕ) => Below (steps b.depth) v (.val (fl ((n : ℚ) / M)))) v n := by
    intro v hv
    have : v ≠ .nan := by
      obtain ⟨p, hp, rfl | rfl | rfl⟩ := hv
      · exact (hn p hp).1
      · exact (hn p hp).2.1
      · exact (hn p hp).2.2
    cases v with
    | nan => exact absurd rfl this
    | val q => obtain ⟨n, h1, h2, h3, h4⟩ := toLevel_ok hfl M hM' q; exact ⟨n, h1, h2, q, _, rfl, rfl, by rw [hst]; exact h3, by rw [hst]; exact h4⟩
  obtain ⟨d, b', k1, k2, k3, k4, k5, _, _, _, _, k6⟩ := back_rgb hfl lib hl M _ b hM hR hw hh hs hw6 hwf ra
  refine ⟨d, b', k1, k2, k3, k4, k5, ?_⟩
  intro x y hx hy
  obtain ⟨p, r, g, bl, p1, p2, p3, p4, p5⟩ := k6 x y hx hy
  exact ⟨p, _, p1, p5, p2, p3, p4⟩

/-- **C105 (partial).**  The same for mono images. -/
theorem C105_roundtrip_mono_partial {fl : ℚ → ℚ} (hfl : IsRounding fl) (lib : Lib) (hl : LibOk lib) (b : Bundle FV)
    (hd : b.depth = 8 ∨ b.depth = 16) (hn : ∀ v ∈ b.image.data, v ≠ .nan) (hw : 0 < b.image.w) (hh : 0 < b.image.h) (hs : b.image.w * b.image.h < 2147483648)
    (hw6 : b.image.w * 6 < 2147483648) (hwf : b.image.WF) (ra : Bool) :
    ∃ d b', writeMono fl lib b = .ok d ∧ readMono fl lib d ra = .ok b' ∧ b'.image.w = b.image.w ∧ b'.image.h = b.image.h ∧
      b'.image.data.length = b.image.w * b.image.h ∧
      ∀ x y, x < b.image.w → y < b.image.h → ∃ p p', b.image.data[y * b.image.w + x]? = some p ∧ b'.image.data[y * b.image.w + x]? = some p' ∧
        Below (steps b.depth) p p' := by
  obtain ⟨M, hM, hM', hst⟩ := depth_M b.depth hd
  have hR : ∀ v ∈ b.image.data, ∃ n, toLevel fl M v = .ok n ∧ n ≤ M ∧
      (fun (v : FV) (n : ℕ) => Below (steps b.depth) v (.val (fl ((n : ℚ) / M)))) v n := by
    intro v hv
    have : v ≠ .nan := hn v hv
    cases v with
    | nan => exact absurd rfl this
    | val q => obtain ⟨n, h1, h2, h3, h4⟩ := toLevel_ok hfl M hM' q; exact ⟨n, h1, h2, q, _, rfl, rfl, by rw [hst]; exact h3, by rw [hst]; exact h4⟩
  obtain ⟨d, b', k1, k2, k3, k4, k5, _, _, _, _, k6⟩ := back_mono hfl lib hl M _ b hM hR hw hh hs hw6 hwf ra
  refine ⟨d, b', k1, k2, k3, k4, k5, ?_⟩
  intro x y hx hy
  obtain ⟨p, r, p1, p2, p3⟩ := k6 x y hx hy
  exact ⟨p, _, p1, p3, p2⟩

/-- A component that is a level of the given depth, as `float`. -/
def OnLevel (fl : ℚ → ℚ) (depth : Int) (v : FV) : Prop := ∃ n : ℕ, (n : ℚ) ≤ steps depth ∧ v = .val (fl (n / steps depth))

/-- **C105 (partial).**  Truncation loses nothing on images that are already quantised: an image read from an 8- or 16-bit
file comes back unchanged when written at that depth and read again. -/
theorem C105_exact_partial {fl : ℚ → ℚ} (hfl : IsRounding fl) (lib : Lib) (hl : LibOk lib) (b : Bundle (FV × FV × FV))
    (hd : b.depth = 8 ∨ b.depth = 16) (hn : ∀ p ∈ b.image.data, OnLevel fl b.depth p.1 ∧ OnLevel fl b.depth p.2.1 ∧ OnLevel fl b.depth p.2.2)
    (hw : 0 < b.image.w) (hh : 0 < b.image.h) (hs : b.image.w * b.image.h < 2147483648) (hw6 : b.image.w * 6 < 2147483648) (hwf : b.image.WF) (ra : Bool) :
    ∃ d b', writeRGB fl lib b = .ok d ∧ readRGB fl lib d ra = .ok b' ∧ b'.image = b.image := by
  obtain ⟨M, hM, hM', hst⟩ := depth_M b.depth hd
  have hR : ∀ v, (∃ p ∈ b.image.data, v = p.1 ∨ v = p.2.1 ∨ v = p.2.2) → ∃ n, toLevel fl M v = .ok n ∧ n ≤ M ∧
      (fun (v : FV) (n : ℕ) => v = .val (fl ((n : ℚ) / M))) v n := by
    intro v hv
    have : OnLevel fl b.depth v := by
      obtain ⟨p, hp, rfl | rfl | rfl⟩ := hv
      · exact (hn p hp).1
      · exact (hn p hp).2.1
      · exact (hn p hp).2.2
    obtain ⟨n, h1, rfl⟩ := this
    rw [hst] at h1 ⊢
    have h1' : n ≤ M := by exact_mod_cast h1
    exact ⟨n, toLevel_exact hfl M hM' n h1', h1', rfl⟩
  obtain ⟨d, b', k1, k2, k3, k4, k5, _, _, _, _, k6⟩ := back_rgb hfl lib hl M _ b hM hR hw hh hs hw6 hwf ra
  refine ⟨d, b', k1, k2, ?_⟩
  have hdata : b'.image.data = b.image.data := by
    apply List.ext_getElem?
    intro i
    rcases Nat.lt_or_ge i (b.image.w * b.image.h) with hi | hi
    · have hx : i % b.image.w < b.image.w := Nat.mod_lt _ hw
      have hy : i / b.image.w < b.image.h := Nat.div_lt_of_lt_mul hi
      have hi' : i / b.image.w * b.image.w + i % b.image.w = i := by rw [Nat.mul_comm]; exact Nat.div_add_mod i _
      obtain ⟨p, r, g, bl, p1, p2, p3, p4, p5⟩ := k6 _ _ hx hy
      rw [hi'] at p1 p5
      rw [p1, p5, ← p2, ← p3, ← p4]
    · rw [List.getElem?_eq_none (by omega), List.getElem?_eq_none (by rw [hwf, Nat.mul_comm]; exact hi)]
  cases hb : b'.image with
  | mk w h data =>
    rw [hb] at k3 k4 hdata
    cases hb2 : b.image with
    | mk w2 h2 data2 =>
      rw [hb2] at k3 k4 hdata
      simp only at k3 k4 hdata
      rw [k3, k4, hdata]

/-! ## Refusals and failures of the writer -/

/-- **C105.**  Depths other than 8 and 16 are refused before anything is written. -/
theorem C105_write_refuses (fl : ℚ → ℚ) (lib : Lib) : (∀ b : Bundle (FV × FV × FV), b.depth ≠ 8 → b.depth ≠ 16 → writeRGB fl lib b = .throw) ∧
    ∀ b : Bundle FV, b.depth ≠ 8 → b.depth ≠ 16 → writeMono fl lib b = .throw := by
  refine ⟨fun b h1 h2 => ?_, fun b h1 h2 => ?_⟩
  · unfold writeRGB; rw [if_pos ⟨h1, h2⟩]
  · unfold writeMono; rw [if_pos ⟨h1, h2⟩]

/-- **C105 (violated).**  The alpha image, the colour space, the gamma and the bit depth do not survive: whatever they were,
the image comes back without alpha, as sRGB, gamma 1, depth 8. -/
theorem C105_metadata_lost {fl : ℚ → ℚ} (hfl : IsRounding fl) (lib : Lib) (hl : LibOk lib) (b : Bundle (FV × FV × FV))
    (hd : b.depth = 8 ∨ b.depth = 16) (hn : NoNaN b.image) (hw : 0 < b.image.w) (hh : 0 < b.image.h) (hs : b.image.w * b.image.h < 2147483648)
    (hw6 : b.image.w * 6 < 2147483648) (hwf : b.image.WF) (ra : Bool) :
    ∃ d b', writeRGB fl lib b = .ok d ∧ readRGB fl lib d ra = .ok b' ∧ b'.alpha = ⟨0, 0, []⟩ ∧ b'.hint = .sRGB ∧ b'.gamma = 1 ∧ b'.depth = 8 := by
  obtain ⟨M, hM, hM', hst⟩ := depth_M b.depth hd
  have hR : ∀ v, (∃ p ∈ b.image.data, v = p.1 ∨ v = p.2.1 ∨ v = p.2.2) → ∃ n, toLevel fl M v = .ok n ∧ n ≤ M ∧
      (fun (_ : FV) (_ : ℕ) => True) v n := by
    intro v hv
    have : v ≠ .nan := by
      obtain ⟨p, hp, rfl | rfl | rfl⟩ := hv
      · exact (hn p hp).1
      · exact (hn p hp).2.1
      · exact (hn p hp).2.2
    cases v with
    | nan => exact absurd rfl this
    | val q => obtain ⟨n, h1, h2, _⟩ := toLevel_ok hfl M hM' q; exact ⟨n, h1, h2, trivial⟩
  obtain ⟨d, b', k1, k2, _, _, _, k6, k7, k8, k9, _⟩ := back_rgb hfl lib hl M _ b hM hR hw hh hs hw6 hwf ra
  exact ⟨d, b', k1, k2, k6, k7, k8, k9⟩

/-- **C105 (violated).**  Writing an image containing a NaN converts NaN to an integer: undefined behaviour. -/
theorem C105_nan (fl : ℚ → ℚ) (lib : Lib) : writeRGB fl lib ⟨⟨1, 1, [(.nan, .val 0, .val 0)]⟩, ⟨0, 0, []⟩, .sRGB, 1, 8⟩ = .ub ∧
    writeMono fl lib ⟨⟨1, 1, [.nan]⟩, ⟨0, 0, []⟩, .sRGB, 1, 8⟩ = .ub := by
  constructor
  · simp [writeRGB, mapRes, grid, writePixel, levels, pixelAt, toLevel, List.range_succ]
  · simp [writeMono, mapRes, grid, pixelAt, toLevel, List.range_succ]

theorem mapRes_ub {α β : Type} (f : α → Res β) : ∀ (l : List α), (∀ a ∈ l, f a ≠ .throw) → (∃ a ∈ l, f a = .ub) → mapRes f l = .ub
  | [], _, h => by obtain ⟨a, ha, _⟩ := h; simp at ha
  | a :: l, h, ⟨b, hb, hb'⟩ => by
    unfold mapRes
    cases e : f a with
    | ok v =>
      rcases List.mem_cons.1 hb with rfl | hb
      · rw [hb'] at e; cases e
      · rw [Res.ok_bind, mapRes_ub f l (fun c hc => h c (List.mem_cons_of_mem _ hc)) ⟨b, hb, hb'⟩]; rfl
    | throw => exact absurd e (h a (List.mem_cons_self ..))
    | ub => rfl

/-- **C105 (violated).**  An RGB image wider than 1 431 655 765 pixels: three times the width wraps in 32 bits, the row buffer
is too small and the writer writes past its end. -/
theorem C105_wide (fl : ℚ → ℚ) (lib : Lib) (b : Bundle (FV × FV × FV)) (hd : b.depth = 8 ∨ b.depth = 16) (hw : 1431655766 ≤ b.image.w)
    (hw' : b.image.w < 2147483648) (hh : 0 < b.image.h) : writeRGB fl lib b = .ub := by
  unfold writeRGB
  rw [if_neg (by omega)]
  generalize (if b.depth = 8 then 255 else 65535) = M
  obtain ⟨B, hB, hB0⟩ : ∃ B, b.depth.toNat / 8 = B ∧ 0 < B := by rcases hd with h | h <;> exact ⟨_, rfl, by rw [h]; decide⟩
  simp only [hB]
  have nt : ∀ M v, toLevel fl M v ≠ .throw := by intro M v; cases v <;> simp [toLevel]
  have ntp : ∀ x y, pixelAt b.image x y ≠ .throw := by intro x y; unfold pixelAt; split <;> simp
  have lv : ∀ x y, levels fl M b.image x y ≠ .throw := by
    intro x y hc
    unfold levels at hc
    cases h1 : pixelAt b.image x y with
    | throw => exact ntp _ _ h1
    | ub => rw [h1] at hc; cases hc
    | ok p =>
      rw [h1, Res.ok_bind] at hc
      cases h2 : toLevel fl M p.1 with
      | throw => exact nt _ _ h2
      | ub => rw [h2] at hc; cases hc
      | ok r =>
        rw [h2, Res.ok_bind] at hc
        cases h3 : toLevel fl M p.2.1 with
        | throw => exact nt _ _ h3
        | ub => rw [h3] at hc; cases hc
        | ok g =>
          rw [h3, Res.ok_bind] at hc
          cases h4 : toLevel fl M p.2.2 with
          | throw => exact nt _ _ h4
          | ub => rw [h4] at hc; cases hc
          | ok l => rw [h4, Res.ok_bind] at hc; cases hc
  rw [mapRes_ub]
  · rfl
  · intro q _ hc
    unfold writePixel at hc
    cases h1 : levels fl M b.image q.1 q.2 with
    | throw => exact lv _ _ h1
    | ub => rw [h1] at hc; cases hc
    | ok l => rw [h1, Res.ok_bind] at hc; split at hc <;> cases hc
  · have hwrap : b.image.w * 3 % 4294967296 = b.image.w * 3 - 4294967296 := by omega
    refine ⟨((b.image.w * 3 - 4294967296) / 3, 0), (mem_grid _ _ _).2 ⟨by show _ / 3 < _; omega, hh⟩, ?_⟩
    unfold writePixel
    cases h1 : levels fl M b.image ((b.image.w * 3 - 4294967296) / 3) 0 with
    | throw => exact absurd h1 (lv _ _)
    | ub => rfl
    | ok l =>
      rw [Res.ok_bind, if_neg]
      rw [hwrap, Nat.mod_eq_of_lt (by omega), ← Nat.add_mul]
      intro hc
      have := Nat.le_of_mul_le_mul_right hc hB0
      omega

end Huira.ImageIO.Tiff
