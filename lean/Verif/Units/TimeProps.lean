import Verif.Units.TimeModel
import Verif.Units.QuantityProps

/-!
# Intervals (C65) and times (C88)
-/

set_option linter.unusedSimpArgs false
set_option linter.unusedVariables false

namespace Huira.Time

open Huira.Num

@[simp] theorem add_second (a : T) (x : Second) : (a.add x).et = a.et + x.value := by
  simp [T.add, Units.Q.as, Units.Q.toSi, Units.Scale.toSi, Units.Scale.fromSi, Units.Scale.getRatio]

/-! ## C65 -/

/-- The three constructors and the accessors describe the same interval. -/
theorem C65_constructors (c : T) (d : Second) (i : Interval) :
    (fromCentered c d).center = c ∧ (fromCentered c d).duration = d ∧
    (fromStart c d).start = c ∧ (fromStart c d).duration = d ∧
    fromStart i.start i.duration = i ∧ fromCentered i.center i.duration = i ∧ fromBounds i.start i.stop = i ∧
    fromBounds (fromStart c d).start (fromStart c d).stop = fromStart c d := by
  refine ⟨?_, ?_, ?_, ?_, ?_, ?_, ?_, ?_⟩ <;>
    simp only [fromCentered, fromStart, fromBounds, Interval.center, Interval.duration] <;> ext <;> simp <;> ring

/-- The centre is half-way between the ends. -/
theorem C65_center (i : Interval) : i.center.et = (i.start.et + i.stop.et) / 2 := by
  simp [Interval.center]; ring

/-- No samples is an error, one sample is the centre; otherwise exactly `N` samples come back. -/
theorem C65_count (fl : ℚ → ℚ) (i : Interval) (N : ℕ) :
    (i.samples fl N = none ↔ N = 0) ∧ (N = 1 → i.samples fl N = some [i.center]) ∧
    (∀ l, i.samples fl N = some l → l.length = N) := by
  refine ⟨?_, ?_, ?_⟩
  · unfold Interval.samples; split_ifs <;> simp_all
  · rintro rfl; simp [Interval.samples]
  · intro l
    unfold Interval.samples
    split_ifs with h0 h1
    · simp
    · intro h; cases h; simp [h1]
    · intro h; simp only [Option.some.injEq] at h; rw [← h]; simp

/-- The ideal position of sample `k` of `N`. -/
noncomputable def ideal (i : Interval) (N k : ℕ) : ℝ :=
  i.start.et + (i.stop.et - i.start.et) * (k / (N - 1 : ℕ))

theorem samples_get (fl : ℚ → ℚ) (i : Interval) (N k : ℕ) (hN : 2 ≤ N) (hk : k < N) (l : List T)
    (h : i.samples fl N = some l) :
    ∃ hl : k < l.length, (l[k]).et = i.start.et + (i.stop.et - i.start.et) / (fl ((N - 1 : ℕ) : ℚ) : ℝ) * k := by
  unfold Interval.samples at h
  rw [if_neg (by omega), if_neg (by omega)] at h
  simp only [Option.some.injEq] at h
  subst h
  refine ⟨by simpa using hk, ?_⟩
  simp [T.sub, Units.Q.divScalar, Units.Q.scale]

/-- The full property: `N ≥ 2` samples are evenly spaced from one end to the other. -/
def C65_full (fl : ℚ → ℚ) : Prop := ∀ (i : Interval) (N : ℕ) (l : List T), 2 ≤ N → i.samples fl N = some l →
  ∀ k (hk : k < l.length), l[k].et = ideal i N k

/-- Up to 2²⁴ + 1 (over 16 million) samples the property holds exactly: even spacing, both ends included. -/
theorem C65_even_partial {fl : ℚ → ℚ} (hfl : IsRounding fl) (i : Interval) (N : ℕ) (l : List T)
    (hN : 2 ≤ N) (hB : N ≤ 2 ^ 24 + 1) (h : i.samples fl N = some l) :
    (∀ k (hk : k < l.length), l[k].et = ideal i N k) ∧
    (∀ hl : 0 < l.length, l[0] = i.start) ∧ (∀ hl : N - 1 < l.length, l[N - 1] = i.stop) := by
  have hex : fl ((N - 1 : ℕ) : ℚ) = ((N - 1 : ℕ) : ℚ) := by
    apply hfl.exact
    have := representable_int ((N - 1 : ℕ) : ℤ) (by rw [abs_of_nonneg (by positivity)]; omega)
    simpa using this
  have hlen := (C65_count fl i N).2.2 l h
  have hne : ((N - 1 : ℕ) : ℝ) ≠ 0 := by
    have : N - 1 ≠ 0 := by omega
    exact_mod_cast this
  have main : ∀ k (hk : k < l.length), l[k].et = ideal i N k := by
    intro k hk
    obtain ⟨_, e⟩ := samples_get fl i N k hN (by omega) l h
    rw [e, hex, ideal]
    simp only [Rat.cast_natCast]
    ring
  refine ⟨main, ?_, ?_⟩
  · intro hl
    ext
    rw [main 0 hl, ideal]; simp
  · intro hl
    ext
    rw [main (N - 1) hl, ideal, div_self hne]; ring

/-- All samples lie in the interval, in order. -/
theorem C65_inside_partial {fl : ℚ → ℚ} (hfl : IsRounding fl) (i : Interval) (N : ℕ) (l : List T)
    (hB : N ≤ 2 ^ 24 + 1) (hi : i.start.et ≤ i.stop.et) (h : i.samples fl N = some l) :
    (∀ k (hk : k < l.length), i.start.et ≤ l[k].et ∧ l[k].et ≤ i.stop.et) ∧
    (∀ j k (hj : j < k) (hk : k < l.length), l[j].et ≤ l[k].et) := by
  have hlen := (C65_count fl i N).2.2 l h
  rcases Nat.lt_or_ge N 2 with hN | hN
  · have hN1 : N = 1 := by
      rcases Nat.eq_zero_or_pos N with h0 | h0
      · rw [(C65_count fl i N).1.mpr h0] at h; cases h
      · omega
    have hl := (C65_count fl i N).2.1 hN1
    rw [hl] at h
    simp only [Option.some.injEq] at h
    subst h
    refine ⟨?_, ?_⟩
    · intro k hk
      have hk0 : k = 0 := by simpa using hk
      subst hk0
      simp only [List.getElem_cons_zero, C65_center]
      constructor <;> linarith
    · intro j k hj hk; simp at hk; omega
  · obtain ⟨main, -, -⟩ := C65_even_partial hfl i N l hN hB h
    have hpos : (0 : ℝ) < ((N - 1 : ℕ) : ℝ) := by
      have : 0 < N - 1 := by omega
      exact_mod_cast this
    have hd : 0 ≤ i.stop.et - i.start.et := by linarith
    refine ⟨?_, ?_⟩
    · intro k hk
      rw [main k hk, ideal]
      have h0 : (0 : ℝ) ≤ (k : ℝ) / ((N - 1 : ℕ) : ℝ) := by positivity
      have h1 : (k : ℝ) / ((N - 1 : ℕ) : ℝ) ≤ 1 := by
        rw [div_le_one hpos]
        have : k ≤ N - 1 := by omega
        exact_mod_cast this
      constructor <;> nlinarith
    · intro j k hj hk
      rw [main j (by omega), main k hk, ideal, ideal]
      have : (j : ℝ) / ((N - 1 : ℕ) : ℝ) ≤ (k : ℝ) / ((N - 1 : ℕ) : ℝ) := by
        apply div_le_div_of_nonneg_right _ hpos.le
        exact_mod_cast hj.le
      nlinarith

/-- For any number of samples whatever, no sample is further from its ideal position than one part in 2²⁴ - 1 of the
duration. -/
theorem C65_error {fl : ℚ → ℚ} (hfl : IsRounding fl) (i : Interval) (N : ℕ) (l : List T)
    (hN : 2 ≤ N) (h : i.samples fl N = some l) (k : ℕ) (hk : k < l.length) :
    |l[k].et - ideal i N k| ≤ |i.stop.et - i.start.et| / (2 ^ 24 - 1) := by
  have hlen := (C65_count fl i N).2.2 l h
  obtain ⟨_, e⟩ := samples_get fl i N k hN (by omega) l h
  rw [e, ideal]
  set n : ℚ := ((N - 1 : ℕ) : ℚ) with hn
  have hnpos : 0 < n := by
    have : 0 < N - 1 := by omega
    rw [hn]; exact_mod_cast this
  have hrel := hfl.rel n
  rw [abs_of_pos hnpos] at hrel
  obtain ⟨hr1, hr2⟩ := abs_le.mp hrel
  have hrelR : |((fl n : ℚ) : ℝ) - (n : ℝ)| ≤ (n : ℝ) / 2 ^ 24 := by
    have : (((|fl n - n| : ℚ)) : ℝ) ≤ ((n / 2 ^ 24 : ℚ) : ℝ) := by exact_mod_cast hrel
    simpa [Rat.cast_abs] using this
  have hnR : (0 : ℝ) < (n : ℝ) := by exact_mod_cast hnpos
  have hfR : (n : ℝ) * (1 - 1 / 2 ^ 24) ≤ (fl n : ℝ) := by
    have := (abs_le.mp hrelR).1
    have e1 : (n : ℝ) * (1 - 1 / 2 ^ 24) = (n : ℝ) - (n : ℝ) / 2 ^ 24 := by ring
    linarith
  have hc1 : (0 : ℝ) < 1 - 1 / 2 ^ 24 := by norm_num
  have hfpos : (0 : ℝ) < (fl n : ℝ) := lt_of_lt_of_le (mul_pos hnR hc1) hfR
  have hnc : (((N - 1 : ℕ)) : ℝ) = (n : ℝ) := by rw [hn]; simp
  rw [hnc]
  have hkn : (k : ℝ) ≤ (n : ℝ) := by
    have : k ≤ N - 1 := by omega
    rw [← hnc]; exact_mod_cast this
  have hk0 : (0 : ℝ) ≤ k := by positivity
  set D := i.stop.et - i.start.et
  have expr : i.start.et + D / (fl n : ℝ) * k - (i.start.et + D * (k / n)) =
      D * ((k : ℝ) / n * ((n - fl n) / fl n)) := by
    field_simp; ring
  rw [expr, abs_mul, div_eq_mul_inv |D|]
  apply mul_le_mul_of_nonneg_left _ (abs_nonneg _)
  rw [abs_mul, abs_div, abs_div, abs_of_pos hfpos, abs_of_pos hnR, abs_of_nonneg hk0]
  have a1 : (k : ℝ) / n ≤ 1 := (div_le_one hnR).mpr hkn
  have a2 : |(n : ℝ) - fl n| / fl n ≤ (2 ^ 24 - 1 : ℝ)⁻¹ := by
    rw [abs_sub_comm, div_le_iff₀ hfpos]
    refine hrelR.trans ?_
    have : (2 ^ 24 - 1 : ℝ)⁻¹ * ((n : ℝ) * (1 - 1 / 2 ^ 24)) = (n : ℝ) / 2 ^ 24 := by norm_num; ring
    rw [← this]
    exact mul_le_mul_of_nonneg_left hfR (by norm_num)
  calc (k : ℝ) / n * (|(n : ℝ) - fl n| / fl n) ≤ 1 * (2 ^ 24 - 1 : ℝ)⁻¹ :=
        mul_le_mul a1 a2 (by positivity) (by norm_num)
    _ = (2 ^ 24 - 1 : ℝ)⁻¹ := one_mul _

/-- 2²⁴ + 1 is not a `float`. -/
theorem not_representable : ¬ Representable ((2 ^ 24 + 1 : ℕ) : ℚ) := by
  rintro ⟨n, k, hn, hx⟩
  rcases le_or_gt k 0 with hk | hk
  · -- n = (2^24+1) * 2^(-k), too large
    have e : (n : ℚ) = ((2 ^ 24 + 1 : ℕ) : ℚ) * 2 ^ (-k) := by
      rw [hx, mul_assoc, ← zpow_add₀ (by norm_num : (2 : ℚ) ≠ 0)]; simp
    have h1 : (1 : ℚ) ≤ 2 ^ (-k) := one_le_zpow₀ (by norm_num) (by omega)
    have h2 : (n : ℚ) ≤ 2 ^ 24 := by exact_mod_cast (le_abs_self n).trans hn
    have h3 : (((2 ^ 24 + 1 : ℕ)) : ℚ) = 2 ^ 24 + 1 := by norm_num
    rw [h3] at e
    nlinarith
  · -- even
    obtain ⟨j, rfl⟩ : ∃ j : ℕ, k = (j : ℤ) + 1 := ⟨(k - 1).toNat, by omega⟩
    have e : (((2 ^ 24 + 1 : ℕ) : ℤ)) = n * 2 ^ (j + 1) := by
      have : ((((2 ^ 24 + 1 : ℕ) : ℤ)) : ℚ) = ((n * 2 ^ (j + 1) : ℤ) : ℚ) := by
        rw [Int.cast_natCast, hx]; push_cast; norm_cast
      exact_mod_cast this
    have : (2 : ℤ) ∣ ((2 ^ 24 + 1 : ℕ) : ℤ) := ⟨n * 2 ^ j, by rw [e]; ring⟩
    norm_num at this

/-- Beyond that the step is computed from a rounded count: with 2²⁴ + 2 samples of any interval of positive length the last
sample is not the interval's end, whichever way the count rounds. -/
theorem C65_violated {fl : ℚ → ℚ} (hfl : IsRounding fl) : ¬ C65_full fl := by
  intro hall
  set i : Interval := ⟨⟨0⟩, ⟨1⟩⟩ with hi
  have hN : 2 ≤ 2 ^ 24 + 2 := by norm_num
  obtain ⟨l, hl⟩ : ∃ l, i.samples fl (2 ^ 24 + 2) = some l := by
    cases h : i.samples fl (2 ^ 24 + 2) with
    | none => exact absurd ((C65_count fl i _).1.mp h) (by norm_num)
    | some l => exact ⟨l, rfl⟩
  have hlen := (C65_count fl i _).2.2 l hl
  have hk : 2 ^ 24 + 1 < l.length := by omega
  have h1 := hall i _ l hN hl (2 ^ 24 + 1) hk
  obtain ⟨_, e⟩ := samples_get fl i (2 ^ 24 + 2) (2 ^ 24 + 1) hN (by omega) l hl
  rw [e, ideal] at h1
  have hsub : (2 ^ 24 + 2 - 1 : ℕ) = 2 ^ 24 + 1 := by norm_num
  rw [hsub] at h1
  simp only [hi] at h1
  have hflr : Representable (fl ((2 ^ 24 + 1 : ℕ) : ℚ)) := hfl.1 _
  have hne : fl ((2 ^ 24 + 1 : ℕ) : ℚ) ≠ ((2 ^ 24 + 1 : ℕ) : ℚ) := by
    intro e2; rw [e2] at hflr; exact not_representable hflr
  apply hne
  have hpos : (((2 ^ 24 + 1 : ℕ)) : ℝ) ≠ 0 := by positivity
  have h2 : ((((2 ^ 24 + 1 : ℕ)) : ℝ)) / ((fl ((2 ^ 24 + 1 : ℕ) : ℚ) : ℚ) : ℝ) = 1 := by
    rw [div_self hpos] at h1
    have h1' : (0 : ℝ) + (1 - 0) / ((fl ((2 ^ 24 + 1 : ℕ) : ℚ) : ℚ) : ℝ) * (((2 ^ 24 + 1 : ℕ)) : ℝ) = 0 + (1 - 0) * 1 := h1
    rw [zero_add, zero_add, sub_zero, one_mul, one_div, mul_comm] at h1'
    rw [div_eq_mul_inv]; exact h1'
  have hf0 : ((fl ((2 ^ 24 + 1 : ℕ) : ℚ) : ℚ) : ℝ) ≠ 0 := by
    intro h0; rw [h0, div_zero] at h2; norm_num at h2
  rw [div_eq_one_iff_eq hf0] at h2
  exact_mod_cast h2.symm

example : IsRounding float32 := float32_exists

/-- Nothing checks the order of the bounds: a reversed interval has a negative duration and is sampled backwards. -/
theorem C65_reversed (i : Interval) (h : i.stop.et < i.start.et) : i.duration.value < 0 := by
  simp only [Interval.duration]; linarith

/-! ## C88 — times -/

/-- What SPICE promises about the two conversions: `unitim` converts back and forth, and the TDB-UTC offset seen from
either side is the same. -/
structure SpiceOk (sp : Spice) : Prop where
  inverse : ∀ (x : ℝ) (a b : TimeScale), sp.unitim (sp.unitim x a b) b a = x
  deltet_utc : ∀ x, sp.deltetEt (x + sp.deltetUtc x) = sp.deltetUtc x
  deltet_et : ∀ x, sp.deltetUtc (x - sp.deltetEt x) = sp.deltetEt x

/-- Such a SPICE exists: constant offsets (TT = TAI + 32.184 s, TDB = TT, 37 leap seconds). -/
noncomputable def constantSpice : Spice where
  unitim x a b := x + (off b - off a)
  deltetUtc _ := 69.184
  deltetEt _ := 69.184
where
  off : TimeScale → ℝ
    | .TDB => 0
    | .TT => 0
    | .TAI => -32.184
    | .UTC => -69.184

theorem constantSpice_ok : SpiceOk constantSpice where
  inverse x a b := by simp only [constantSpice]; ring
  deltet_utc _ := rfl
  deltet_et _ := rfl

/-- The time whose Julian date in a scale is `jd` is the one built from it, and conversely: both round trips are exact, in
every time scale. -/
theorem C88_julian_round_trip {sp : Spice} (h : SpiceOk sp) (jd : ℝ) (t : T) (s : TimeScale) :
    toJulianDate sp (fromJulianDate sp jd s) s = jd ∧ fromJulianDate sp (toJulianDate sp t s) s = t := by
  have e : ∀ x : ℝ, (j2000 + x / secondsPerDay - j2000) * secondsPerDay = x := by
    intro x; simp only [j2000, secondsPerDay]; ring
  constructor
  · cases s <;> simp only [toJulianDate, fromJulianDate, secondsPast, h.inverse, h.deltet_utc] <;>
      simp only [j2000, secondsPerDay] <;> ring
  · cases s <;> simp only [toJulianDate, fromJulianDate, secondsPast, e, h.inverse, h.deltet_et]
    ext
    simp

/-- The same for Modified Julian Dates, which are Julian dates minus 2400000.5. -/
theorem C88_mjd {sp : Spice} (h : SpiceOk sp) (mjd : ℝ) (t : T) (s : TimeScale) :
    toModifiedJulianDate sp t s = toJulianDate sp t s - 2400000.5 ∧
    toModifiedJulianDate sp (fromModifiedJulianDate sp mjd s) s = mjd ∧
    fromModifiedJulianDate sp (toModifiedJulianDate sp t s) s = t := by
  refine ⟨rfl, ?_, ?_⟩
  · simp only [toModifiedJulianDate, fromModifiedJulianDate, (C88_julian_round_trip h _ t s).1]; ring
  · simp only [toModifiedJulianDate, fromModifiedJulianDate, sub_add_cancel, (C88_julian_round_trip h 0 t s).2]

/-- Julian years since J2000 are (JD - 2451545) / 365.25 in the same scale. -/
theorem C88_julian_years (sp : Spice) (t : T) (s : TimeScale) :
    julianYears sp t s = (toJulianDate sp t s - 2451545) / 365.25 := by
  simp only [julianYears, toJulianDate, secondsPerJulianYear, j2000, secondsPerDay]; ring

/-- The J2000 epoch: JD 2451545.0 TDB is ephemeris time zero, and a day later is 86400 s. -/
theorem C88_epoch (sp : Spice) (jd : ℝ) :
    (fromJulianDate sp 2451545 .TDB).et = 0 ∧
    (fromJulianDate sp (jd + 1) .TDB).et = (fromJulianDate sp jd .TDB).et + 86400 := by
  simp only [fromJulianDate, j2000, secondsPerDay]
  constructor <;> ring

/-- The comparison operators form one total order on times, consistently with equality. -/
theorem C88_order (a b c : T) :
    (a.eq b ↔ a = b) ∧ (a.ne b ↔ a ≠ b) ∧ (a.le b ↔ a.lt b ∨ a.eq b) ∧ (a.gt b ↔ b.lt a) ∧ (a.ge b ↔ b.le a) ∧
    (a.lt b ∨ a.eq b ∨ b.lt a) ∧ ¬ a.lt a ∧ (a.lt b → b.lt c → a.lt c) ∧ (a.lt b → ¬ b.lt a) := by
  have heq : a.eq b ↔ a = b := by
    constructor
    · intro h; ext; exact h
    · rintro rfl; rfl
  refine ⟨heq, not_congr heq, ?_, Iff.rfl, Iff.rfl, ?_, lt_irrefl _, lt_trans, lt_asymm⟩
  · simp only [T.le, T.lt, T.eq, not_lt]; exact le_iff_lt_or_eq
  · exact lt_trichotomy _ _

/-- Time differences and time shifts are inverse operations, in whatever unit the shift is given, and shifting respects the
order. -/
theorem C88_arithmetic {s : Units.Scale} (hs : s.Ok) (a b : T) (x : Units.Q Dim.Time s) :
    ((a.add x).sub a).toSi = x.toSi ∧ a.add (b.sub a) = b ∧ (a.sub b).toSi = -(b.sub a).toSi ∧
    ((a.add x).lt (b.add x) ↔ a.lt b) ∧ (0 < x.toSi ↔ a.lt (a.add x)) := by
  have e : (a.add x).et = a.et + x.toSi := by
    simp only [T.add]; rw [Units.C61_conversion_preserves (by simp [Units.Scale.Ok])]
  have e' : (b.add x).et = b.et + x.toSi := by
    simp only [T.add]; rw [Units.C61_conversion_preserves (by simp [Units.Scale.Ok])]
  have ts : ∀ v : ℝ, (⟨v⟩ : Second).toSi = v := by
    intro v; simp [Units.Q.toSi, Units.Scale.toSi, Units.Scale.getRatio]
  refine ⟨?_, ?_, ?_, ?_, ?_⟩
  · simp only [T.sub, ts, e]; ring
  · ext; rw [add_second]; simp only [T.sub]; ring
  · simp only [T.sub, ts]; ring
  · simp only [T.lt, e, e', add_lt_add_iff_right]
  · simp only [T.lt, e]; constructor <;> intro h <;> linarith

end Huira.Time
