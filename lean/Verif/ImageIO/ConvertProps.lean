import Verif.ImageIO.Convert
/-! # C25: integer pixels survive the trip through `float` -/
set_option linter.unusedSimpArgs false
namespace Huira.ImageIO.Convert
open Huira.Num

variable {fl : ℚ → ℚ}

/-- The integer pixel types: (min, max). -/
def uint8 : ℤ × ℤ := (0, 2 ^ 8 - 1)
def uint16 : ℤ × ℤ := (0, 2 ^ 16 - 1)
def uint32 : ℤ × ℤ := (0, 2 ^ 32 - 1)
def int8 : ℤ × ℤ := (-2 ^ 7, 2 ^ 7 - 1)
def int16 : ℤ × ℤ := (-2 ^ 15, 2 ^ 15 - 1)
def int32 : ℤ × ℤ := (-2 ^ 31, 2 ^ 31 - 1)

/-- C25 in full, for the default range [0, 1] and any round-to-nearest `float`. -/
def C25_full : Prop := ∀ fl : ℚ → ℚ, IsRounding fl →
  (∀ t ∈ [uint8, uint16, uint32], ∀ v, t.1 ≤ v → v ≤ t.2 → fromFloatU fl t.2 (toFloatU fl t.2 v 0 1) 0 1 = some v) ∧
  (∀ t ∈ [int8, int16, int32], ∀ v, t.1 ≤ v → v ≤ t.2 →
    fromFloatS fl t.1 t.2 (toFloatS fl t.1 t.2 v 0 1) 0 1 = some v)

theorem fl_le (h : IsRounding fl) {x y : ℚ} (hy : Representable y) (hxy : x ≤ y) : fl x ≤ y := by
  by_contra hc
  have := h.nearest x y hy
  rw [abs_of_nonneg (by linarith), abs_of_nonneg (by linarith)] at this
  linarith
theorem le_fl (h : IsRounding fl) {x y : ℚ} (hy : Representable y) (hxy : y ≤ x) : y ≤ fl x := by
  by_contra hc
  have := h.nearest x y hy
  rw [abs_of_nonpos (by linarith), abs_of_nonpos (by linarith)] at this
  linarith

theorem rep0 : Representable (0 : ℚ) := ⟨0, 0, by norm_num, by simp⟩
theorem rep1 : Representable (1 : ℚ) := ⟨1, 0, by norm_num, by simp⟩
theorem fl0 (h : IsRounding fl) : fl 0 = 0 := h.exact rep0
theorem fl1 (h : IsRounding fl) : fl 1 = 1 := h.exact rep1

theorem small_exact (h : IsRounding fl) (n : ℤ) (h1 : -16777216 ≤ n) (h2 : n ≤ 16777216) : fl (n : ℚ) = n :=
  h.exact (representable_int n (by rw [abs_le]; norm_num; exact ⟨h1, h2⟩))

/-- A non-negative number up to 65536 is rounded by less than 1/256. -/
theorem fl_small (h : IsRounding fl) (x : ℚ) (h0 : |x| ≤ 65536) : |fl x - x| ≤ 1 / 256 := by
  have := h.rel x
  have h2 : |x| / 2 ^ 24 ≤ 1 / 256 := by
    rw [div_le_iff₀ (by norm_num)]; norm_num; linarith
  linarith

/-- The stored value of an unsigned integer. -/
theorem toFloatU_eq (h : IsRounding fl) (M v : ℤ) (hM : M ≤ 65535) (hv : 0 ≤ v) (hvM : v ≤ M) :
    toFloatU fl M v 0 1 = fl ((v : ℚ) / M) := by
  unfold toFloatU
  rw [sub_zero, fl1 h, small_exact h v (by omega) (by omega), small_exact h M (by omega) (by omega)]
  simp only [mul_one, zero_add]
  rw [h.exact (h.repr _), h.exact (h.repr _)]

theorem ratio_bounds (h : IsRounding fl) (M v : ℚ) (hM : 0 < M) (hv : 0 ≤ v) (hvM : v ≤ M) :
    0 ≤ fl (v / M) ∧ fl (v / M) ≤ 1 := by
  refine ⟨le_fl h rep0 (by positivity), fl_le h rep1 ?_⟩
  rw [div_le_one hM]; exact hvM

theorem clamp_id (x : ℚ) (h0 : 0 ≤ x) (h1 : x ≤ 1) : clamp01 x = x := by
  unfold clamp01
  rw [if_neg (by linarith), if_neg (by linarith)]

/-- Scaling a rounded ratio back up is accurate. -/
theorem scale_back (h : IsRounding fl) (M v : ℚ) (hM : 0 < M) (hM2 : M ≤ 65535) (hv : 0 ≤ v) (hvM : v ≤ M) :
    |fl (fl (v / M) * M) - v| ≤ 2 / 256 := by
  have e1 := h.rel (v / M)
  have hvm : |v / M| = v / M := abs_of_nonneg (by positivity)
  have e2 : |fl (v / M) * M - v| ≤ 1 / 256 := by
    have : fl (v / M) * M - v = (fl (v / M) - v / M) * M := by field_simp
    rw [this, abs_mul, abs_of_pos hM]
    calc |fl (v / M) - v / M| * M ≤ (v / M / 2 ^ 24) * M := by
          rw [hvm] at e1; exact mul_le_mul_of_nonneg_right e1 hM.le
      _ = v / 2 ^ 24 := by field_simp
      _ ≤ 1 / 256 := by rw [div_le_iff₀ (by norm_num)]; norm_num; linarith
  have e3 := fl_small h (fl (v / M) * M) (by
    rw [abs_le] at e2 ⊢
    constructor <;> linarith [e2.1, e2.2])
  calc |fl (fl (v / M) * M) - v| = |(fl (fl (v / M) * M) - fl (v / M) * M) + (fl (v / M) * M - v)| := by ring_nf
    _ ≤ _ := abs_add_le _ _
    _ ≤ 2 / 256 := by linarith

theorem castInt_pos (lo hi : ℤ) (y : ℚ) (h : 0 ≤ y) :
    castInt lo hi y = if lo ≤ ⌊y⌋ ∧ ⌊y⌋ ≤ hi then some ⌊y⌋ else none := by
  unfold castInt; simp only [if_pos h]
theorem castInt_neg (lo hi : ℤ) (y : ℚ) (h : ¬ 0 ≤ y) :
    castInt lo hi y = if lo ≤ ⌈y⌉ ∧ ⌈y⌉ ≤ hi then some ⌈y⌉ else none := by
  unfold castInt; simp only [if_neg h]

theorem floor_of_near (q : ℚ) (v : ℤ) (h : |q - (v + 1 / 2)| ≤ 1 / 4) : ⌊q⌋ = v := by
  rw [Int.floor_eq_iff]
  rw [abs_le] at h
  constructor <;> linarith [h.1, h.2]

theorem ceil_of_near (q : ℚ) (v : ℤ) (h : |q - (v + 1 / 2)| ≤ 1 / 4) : ⌈q⌉ = v + 1 := by
  rw [Int.ceil_eq_iff]
  rw [abs_le] at h
  push_cast
  constructor <;> linarith [h.1, h.2]

/-- **C25 (partial).** Unsigned 8- and 16-bit (any unsigned type up to 16 bits): every value returns, for every
round-to-nearest `float` arithmetic. -/
theorem C25_unsigned_partial (h : IsRounding fl) (M v : ℤ) (hM0 : 0 < M) (hM : M ≤ 65535) (hv : 0 ≤ v) (hvM : v ≤ M) :
    fromFloatU fl M (toFloatU fl M v 0 1) 0 1 = some v := by
  have hM0' : (0 : ℚ) < M := by exact_mod_cast hM0
  have hM' : (M : ℚ) ≤ 65535 := by exact_mod_cast hM
  have hv' : (0 : ℚ) ≤ v := by exact_mod_cast hv
  have hvM' : (v : ℚ) ≤ M := by exact_mod_cast hvM
  rw [toFloatU_eq h M v hM hv hvM]
  unfold fromFloatU
  obtain ⟨b0, b1⟩ := ratio_bounds h M v hM0' hv' hvM'
  simp only [sub_zero, fl1 h, div_one]
  rw [h.exact (h.repr _), h.exact (h.repr _), clamp_id _ b0 b1, small_exact h M (by omega) (by omega)]
  have e1 := scale_back h M v hM0' hM' hv' hvM'
  obtain ⟨p, hp⟩ : ∃ p, p = fl (fl ((v : ℚ) / M) * M) := ⟨_, rfl⟩
  rw [← hp] at e1 ⊢
  have e1' := abs_le.1 e1
  have e2 := fl_small h (p + 1 / 2) (by rw [abs_le]; constructor <;> linarith [e1'.1, e1'.2])
  have e2' := abs_le.1 e2
  have hq : |fl (p + 1 / 2) - (v + 1 / 2)| ≤ 1 / 4 := by
    rw [abs_le]; constructor <;> linarith [e1'.1, e1'.2, e2'.1, e2'.2]
  have hq' := abs_le.1 hq
  rw [castInt_pos _ _ _ (by linarith [hq'.1]), floor_of_near _ v hq, if_pos ⟨hv, hvM⟩]

/-- The value computed just before the final cast for a signed type of at most 16 bits: `v + 1/2` up to 1/32. -/
theorem signed_core (h : IsRounding fl) (m M v : ℤ) (hm : m = -(M + 1)) (hM : M ≤ 32767) (hM0 : 0 ≤ M)
    (hv : m ≤ v) (hvM : v ≤ M) :
    ∃ q, fromFloatS fl m M (toFloatS fl m M v 0 1) 0 1 = castInt m M q ∧ |q - (v + 1 / 2)| ≤ 1 / 4 := by
  have hw : (0 : ℚ) < ((M - m : ℤ) : ℚ) := by exact_mod_cast (by omega : 0 < M - m)
  have hw2 : ((M - m : ℤ) : ℚ) ≤ 65535 := by exact_mod_cast (by omega : M - m ≤ 65535)
  have hv0 : (0 : ℚ) ≤ ((v - m : ℤ) : ℚ) := by exact_mod_cast (by omega : 0 ≤ v - m)
  have hvw : ((v - m : ℤ) : ℚ) ≤ ((M - m : ℤ) : ℚ) := by exact_mod_cast (by omega : v - m ≤ M - m)
  have hmQ : (-32768 : ℚ) ≤ m := by exact_mod_cast (by omega : -32768 ≤ m)
  have hmQ0 : (m : ℚ) ≤ 0 := by exact_mod_cast (by omega : m ≤ 0)
  have hx : toFloatS fl m M v 0 1 = fl (((v - m : ℤ) : ℚ) / ((M - m : ℤ) : ℚ)) := by
    unfold toFloatS
    rw [sub_zero, fl1 h, small_exact h v (by omega) (by omega), small_exact h M (by omega) (by omega),
      small_exact h m (by omega) (by omega)]
    simp only [mul_one, zero_add]
    rw [← Int.cast_sub, ← Int.cast_sub, small_exact h (v - m) (by omega) (by omega),
      small_exact h (M - m) (by omega) (by omega), h.exact (h.repr _), h.exact (h.repr _)]
  rw [hx]
  unfold fromFloatS
  obtain ⟨b0, b1⟩ := ratio_bounds h _ _ hw hv0 hvw
  simp only [sub_zero, fl1 h, div_one]
  rw [h.exact (h.repr _), h.exact (h.repr _), clamp_id _ b0 b1, small_exact h M (by omega) (by omega),
    small_exact h m (by omega) (by omega), ← Int.cast_sub, small_exact h (M - m) (by omega) (by omega)]
  refine ⟨_, rfl, ?_⟩
  have e1 := scale_back h _ _ hw hw2 hv0 hvw
  obtain ⟨p, hp⟩ : ∃ p, p = fl (fl (((v - m : ℤ) : ℚ) / ((M - m : ℤ) : ℚ)) * ((M - m : ℤ) : ℚ)) := ⟨_, rfl⟩
  rw [← hp] at e1 ⊢
  have e1' := abs_le.1 e1
  have hvm : ((v - m : ℤ) : ℚ) = v - m := by push_cast; ring
  rw [hvm] at e1' hv0 hvw
  have e2 := fl_small h ((m : ℚ) + p) (by rw [abs_le]; constructor <;> linarith [e1'.1, e1'.2])
  have e2' := abs_le.1 e2
  have e3 := fl_small h (fl ((m : ℚ) + p) + 1 / 2) (by
    rw [abs_le]; constructor <;> linarith [e1'.1, e1'.2, e2'.1, e2'.2])
  have e3' := abs_le.1 e3
  rw [abs_le]; constructor <;> linarith [e1'.1, e1'.2, e2'.1, e2'.2, e3'.1, e3'.2]

/-- **C25 (partial).** Signed 8- and 16-bit: every non-negative value returns. -/
theorem C25_signed_nonneg_partial (h : IsRounding fl) (m M v : ℤ) (hm : m = -(M + 1)) (hM : M ≤ 32767) (hv : 0 ≤ v)
    (hvM : v ≤ M) : fromFloatS fl m M (toFloatS fl m M v 0 1) 0 1 = some v := by
  obtain ⟨q, e, hq⟩ := signed_core h m M v hm hM (by omega) (by omega) hvM
  rw [e]
  have hv' : (0 : ℚ) ≤ v := by exact_mod_cast hv
  have hq' := abs_le.1 hq
  rw [castInt_pos _ _ _ (by linarith [hq'.1]), floor_of_near _ v hq, if_pos (by omega)]

/-- **C25 (violated).** Signed 8- and 16-bit: *every* negative value comes back one too large (the cast truncates
toward zero after adding one half). -/
theorem C25_signed_negative (h : IsRounding fl) (m M v : ℤ) (hm : m = -(M + 1)) (hM : M ≤ 32767) (hv : v < 0)
    (hvm : m ≤ v) : fromFloatS fl m M (toFloatS fl m M v 0 1) 0 1 = some (v + 1) := by
  obtain ⟨q, e, hq⟩ := signed_core h m M v hm hM (by omega) hvm (by omega)
  rw [e]
  have hv' : (v : ℚ) ≤ -1 := by exact_mod_cast (by omega : v ≤ -1)
  have hq' := abs_le.1 hq
  rw [castInt_neg _ _ _ (by linarith [hq'.2]), ceil_of_near _ v hq, if_pos (by omega)]

theorem C25_violated : ¬ C25_full := by
  intro hfull
  have h1 := (hfull float32 float32_exists).2 int8 (by simp) (-5) (by norm_num [int8]) (by norm_num [int8])
  have h2 := C25_signed_negative float32_exists (-2 ^ 7) (2 ^ 7 - 1) (-5) (by norm_num) (by norm_num) (by norm_num) (by norm_num)
  have : (some (-5) : Option ℤ) = some (-5 + 1) := by rw [← h1, ← h2]; rfl
  simp at this

/-- A representable number within one of 2^32 - 1 is 2^32. -/
theorem near_two_pow (e : ℕ) (he : 26 ≤ e) (y : ℚ) (hy : Representable y) (h : |y - (2 ^ e - 1)| ≤ 1) : y = 2 ^ e := by
  obtain ⟨n, k, hn, rfl⟩ := hy
  rw [abs_le] at h
  have hk : 2 ≤ k := by
    by_contra hk
    have hn' : |(n : ℚ)| ≤ 2 ^ 24 := by rw [← Int.cast_abs]; exact_mod_cast hn
    have h2 : (2 : ℚ) ^ k ≤ 2 := by
      calc (2 : ℚ) ^ k ≤ 2 ^ (1 : ℤ) := zpow_le_zpow_right₀ (by norm_num) (by omega)
        _ = 2 := by norm_num
    have h3 : (n : ℚ) * 2 ^ k ≤ 2 ^ 24 * 2 := by
      calc (n : ℚ) * 2 ^ k ≤ |(n : ℚ)| * 2 ^ k := by gcongr; exact le_abs_self _
        _ ≤ 2 ^ 24 * 2 := by gcongr
    have h4 : (2 : ℚ) ^ 26 ≤ 2 ^ e := by gcongr; norm_num
    norm_num at h4 h3
    linarith [h.1]
  obtain ⟨j, rfl⟩ : ∃ j : ℕ, k = (j : ℤ) + 2 := ⟨(k - 2).toNat, by omega⟩
  obtain ⟨f, rfl⟩ : ∃ f : ℕ, e = f + 2 := ⟨e - 2, by omega⟩
  have e1 : (n : ℚ) * 2 ^ ((j : ℤ) + 2) = ((n * 2 ^ j * 4 : ℤ) : ℚ) := by
    rw [zpow_add₀ (by norm_num : (2 : ℚ) ≠ 0), zpow_natCast]; push_cast; norm_num; ring
  rw [e1] at h ⊢
  have e2 : (2 : ℚ) ^ (f + 2) = (((2 : ℤ) ^ f * 4 : ℤ) : ℚ) := by push_cast; rw [pow_add]; norm_num
  rw [e2] at h ⊢
  have h1 : ((n * 2 ^ j * 4 : ℤ) : ℚ) ≤ (((2 : ℤ) ^ f * 4 : ℤ) : ℚ) := by linarith [h.2]
  have h2 : (((2 : ℤ) ^ f * 4 - 2 : ℤ) : ℚ) ≤ ((n * 2 ^ j * 4 : ℤ) : ℚ) := by push_cast at h ⊢; linarith [h.1]
  have h1' := Int.cast_le.1 h1
  have h2' := Int.cast_le.1 h2
  congr 1
  generalize n * 2 ^ j = A at *
  generalize (2 : ℤ) ^ f = B at *
  omega

theorem two_pow_rep (e : ℕ) : Representable ((2 : ℚ) ^ e) := ⟨1, e, by norm_num, by rw [zpow_natCast]; norm_num⟩

/-- **C25 (violated).** Unsigned 32-bit: the largest value is converted to 1.0 and back out of the type's range,
which is undefined behaviour. -/
theorem C25_uint32_max (h : IsRounding fl) :
    toFloatU fl (2 ^ 32 - 1) (2 ^ 32 - 1) 0 1 = 1 ∧
    fromFloatU fl (2 ^ 32 - 1) (toFloatU fl (2 ^ 32 - 1) (2 ^ 32 - 1) 0 1) 0 1 = none := by
  have e1 : fl (((2 ^ 32 - 1 : ℤ)) : ℚ) = 2 ^ 32 := by
    apply near_two_pow 32 (by norm_num) _ (h.repr _)
    have := h.nearest (((2 ^ 32 - 1 : ℤ)) : ℚ) (2 ^ 32) (two_pow_rep 32)
    push_cast at this ⊢
    norm_num at this ⊢
    exact this
  have e2 : toFloatU fl (2 ^ 32 - 1) (2 ^ 32 - 1) 0 1 = 1 := by
    unfold toFloatU
    rw [e1, sub_zero, fl1 h, div_self (by norm_num)]
    simp only [mul_one, zero_add]
    rw [fl1 h, fl1 h, fl1 h]
  refine ⟨e2, ?_⟩
  rw [e2]
  unfold fromFloatU
  simp only [sub_zero, fl1 h, div_one]
  rw [clamp_id 1 (by norm_num) (by norm_num), e1, one_mul, h.exact (two_pow_rep 32)]
  have hge : (2 : ℚ) ^ 32 ≤ fl (2 ^ 32 + 1 / 2) := le_fl h (two_pow_rep 32) (by norm_num)
  rw [castInt_pos _ _ _ (by linarith [show (0 : ℚ) ≤ 2 ^ 32 by norm_num])]
  have : (2 : ℤ) ^ 32 ≤ ⌊fl (2 ^ 32 + 1 / 2)⌋ := by rw [Int.le_floor]; push_cast; exact_mod_cast hge
  rw [if_neg (by omega)]

/-- Conversions never leave the target range for the 8/16-bit types, whatever the (finite) input: the clamp makes the
cast defined. -/
theorem C25_unsigned_defined (h : IsRounding fl) (M : ℤ) (hM0 : 0 < M) (hM : M ≤ 65535) (x : ℚ) :
    ∃ v, fromFloatU fl M x 0 1 = some v ∧ 0 ≤ v ∧ v ≤ M := by
  have hM0' : (0 : ℚ) < M := by exact_mod_cast hM0
  have hM' : (M : ℚ) ≤ 65535 := by exact_mod_cast hM
  unfold fromFloatU
  simp only
  obtain ⟨c, hc⟩ : ∃ c, c = clamp01 (fl (fl (x - 0) / fl (1 - 0))) := ⟨_, rfl⟩
  rw [← hc, small_exact h M (by omega) (by omega)]
  have hc0 : 0 ≤ c ∧ c ≤ 1 := by
    rw [hc]; unfold clamp01
    split
    · norm_num
    split
    · norm_num
    · constructor <;> linarith
  have hcm : 0 ≤ c * M ∧ c * M ≤ M := ⟨mul_nonneg hc0.1 hM0'.le, by nlinarith [hc0.2]⟩
  have p0 : 0 ≤ fl (c * M) := le_fl h rep0 hcm.1
  have p1 : fl (c * M) ≤ M := fl_le h (representable_int M (by rw [abs_le]; norm_num; omega)) hcm.2
  have q0 : 0 ≤ fl (fl (c * M) + 1 / 2) := le_fl h rep0 (by linarith)
  have q1 := abs_le.1 (fl_small h (fl (c * M) + 1 / 2) (by rw [abs_le]; constructor <;> linarith))
  have f0 : 0 ≤ ⌊fl (fl (c * M) + 1 / 2)⌋ := Int.floor_nonneg.2 q0
  have f1 : ⌊fl (fl (c * M) + 1 / 2)⌋ ≤ M := by
    rw [← Int.lt_add_one_iff, Int.floor_lt]; push_cast; linarith [q1.2]
  refine ⟨⌊fl (fl (c * M) + 1 / 2)⌋, ?_, f0, f1⟩
  rw [castInt_pos _ _ _ q0, if_pos ⟨f0, f1⟩]

/-- Non-vacuity: the hypotheses hold for a rounding that exists and a typical value. -/
example : fromFloatU float32 255 (toFloatU float32 255 200 0 1) 0 1 = some 200 :=
  C25_unsigned_partial float32_exists 255 200 (by norm_num) (by norm_num) (by norm_num) (by norm_num)

end Huira.ImageIO.Convert
