import Verif.Offset.Model
import Mathlib.Tactic

/-!
# Secondary rays start on the right side (C69)
-/

set_option linter.unusedSimpArgs false
set_option linter.unusedVariables false

namespace Huira.Offset

variable {k : Kind}

/-! ## The numbers of a format -/

/-- Distance to the next number away from zero. -/
def ulp (k : Kind) (m : ℕ) : ℚ := if m / 2 ^ k.p = 0 then 2 ^ k.emin else 2 ^ ((m / 2 ^ k.p : ℕ) - 1 + k.emin)

theorem ulp_pos (m : ℕ) : 0 < ulp k m := by unfold ulp; split_ifs <;> positivity

theorem magVal_succ (m : ℕ) : magVal k (m + 1) = magVal k m + ulp k m := by
  have hp : 0 < 2 ^ k.p := by positivity
  generalize hP : 2 ^ k.p = P at hp
  have hPQ : ((2 : ℚ) ^ k.p) = (P : ℚ) := by rw [← hP]; push_cast; rfl
  unfold magVal ulp
  rw [hP, hPQ]
  by_cases hc : m % P + 1 < P
  · have h1 : (m + 1) / P = m / P := by
      rw [Nat.succ_div]; 
      rw [if_neg]; · simp
      intro hd
      have := (Nat.dvd_iff_mod_eq_zero).1 hd
      rw [Nat.add_mod] at this
      by_cases hP1 : P = 1
      · subst hP1; omega
      rw [Nat.mod_eq_of_lt (show 1 < P by omega), Nat.mod_eq_of_lt hc] at this
      omega
    have h2 : (m + 1) % P = m % P + 1 := by
      have e1 := Nat.div_add_mod (m + 1) P
      have e2 := Nat.div_add_mod m P
      rw [h1] at e1; omega
    rw [h1, h2]
    split_ifs <;> push_cast <;> ring
  · have hr : m % P = P - 1 := by have := Nat.mod_lt m hp; omega
    have h1 : m + 1 = P * (m / P + 1) := by
      have e2 := Nat.div_add_mod m P
      rw [mul_add]; omega
    have hq : (m + 1) / P = m / P + 1 := by rw [h1]; exact Nat.mul_div_cancel_left _ hp
    have h2 : (m + 1) % P = 0 := by rw [h1]; exact Nat.mul_mod_right _ _
    rw [hq, h2, hr]
    rw [if_neg (Nat.succ_ne_zero _)]
    have hc1 : ((P - 1 : ℕ) : ℚ) = P - 1 := by push_cast [Nat.cast_sub (show 1 ≤ P by omega)]; ring
    rw [hc1]
    split_ifs with h0
    · rw [h0]; simp; ring
    · generalize m / P = q
      rw [show (((q + 1 : ℕ) : ℤ) - 1 + k.emin : ℤ) = ((q : ℤ) - 1 + k.emin) + 1 by push_cast; ring,
        zpow_add₀ (by norm_num : (2 : ℚ) ≠ 0)]
      push_cast; ring

theorem magVal_zero : magVal k 0 = 0 := by simp [magVal]

theorem magVal_strictMono : StrictMono (magVal k) :=
  strictMono_nat_of_lt_succ fun m => by rw [magVal_succ]; linarith [ulp_pos (k := k) m]

theorem magVal_nonneg (m : ℕ) : 0 ≤ magVal k m := by
  rw [← magVal_zero (k := k)]; exact magVal_strictMono.monotone (Nat.zero_le _)

theorem magVal_pos {m : ℕ} (h : 0 < m) : 0 < magVal k m := by
  rw [← magVal_zero (k := k)]; exact magVal_strictMono h

/-- The step is at most one unit in the last place. -/
theorem ulp_le (m : ℕ) : ulp k m ≤ max (2 ^ k.emin) (magVal k m / 2 ^ k.p) := by
  unfold ulp magVal
  split_ifs with h
  · exact le_max_left _ _
  · refine le_max_of_le_right ?_
    rw [le_div_iff₀ (by positivity), mul_comm]
    gcongr
    have : (0 : ℚ) ≤ ((m % 2 ^ k.p : ℕ) : ℚ) := Nat.cast_nonneg _
    linarith

theorem two_emin_le {m : ℕ} (hm : 2 ^ k.p ≤ m) : (2 : ℚ) ^ k.emin ≤ magVal k m / 2 ^ k.p := by
  have h1 : magVal k (2 ^ k.p) ≤ magVal k m := magVal_strictMono.monotone hm
  have h2 : magVal k (2 ^ k.p) = 2 ^ k.p * 2 ^ k.emin := by
    unfold magVal
    rw [Nat.div_self (by positivity), Nat.mod_self]; simp
  rw [le_div_iff₀ (by positivity), mul_comm]; linarith

/-- Going up `j` steps changes the number by at most `j` units in the last place. -/
theorem up_bound {m : ℕ} (hm : 2 ^ k.p ≤ m) (j : ℕ) :
    magVal k (m + j) - magVal k m ≤ j * (magVal k (m + j) / 2 ^ k.p) := by
  induction j with
  | zero => simp
  | succ j ih =>
    have h1 : ulp k (m + j) ≤ magVal k (m + j) / 2 ^ k.p :=
      (ulp_le _).trans (max_le (two_emin_le (by omega)) le_rfl)
    have h2 := magVal_succ (k := k) (m + j)
    have h3 : magVal k (m + j) / 2 ^ k.p ≤ magVal k (m + (j + 1)) / 2 ^ k.p := by
      gcongr
      exact magVal_strictMono.monotone (by omega)
    rw [show m + (j + 1) = m + j + 1 by ring] at *
    have h4 : (j : ℚ) * (magVal k (m + j) / 2 ^ k.p) ≤ j * (magVal k (m + j + 1) / 2 ^ k.p) := by gcongr
    push_cast
    linarith

/-! ## Constants -/

/-- The numbers a theorem below needs to know of a format. -/
theorem consts (k : Kind) : 0 < intScale k ∧ 0 < floatScale k ∧ 0 < origin k ∧ intScale k * floatScale k ≤ 1 ∧
    (2 : ℚ) ^ k.emin < floatScale k / intScale k ∧ origin k / 2 ^ k.p < floatScale k / intScale k := by
  have h : (2 : ℚ) ^ k.emin < 2 ^ (-50 : ℤ) := zpow_lt_zpow_right₀ (by norm_num) (by cases k <;> simp [Kind.emin])
  have h2 : (2 : ℚ) ^ (-50 : ℤ) < floatScale k / intScale k := by
    cases k <;> norm_num [intScale, floatScale]
  refine ⟨?_, ?_, ?_, ?_, h.trans h2, ?_⟩ <;> cases k <;> norm_num [intScale, floatScale, origin, Kind.p]

theorem val_neg_mk (m : ℕ) : val k ⟨true, m⟩ = -magVal k m := by simp [val]
theorem val_pos_mk (m : ℕ) : val k ⟨false, m⟩ = magVal k m := by simp [val]
theorem abs_val (b : Bits) : |val k b| = magVal k b.mag := by
  unfold val; split_ifs
  · rw [abs_neg, abs_of_nonneg (magVal_nonneg _)]
  · rw [abs_of_nonneg (magVal_nonneg _)]

/-- The sum of a power of two and a smaller number with few bits is a number of the format. -/
theorem repr_of (k : Kind) (e : ℤ) (h1 : k.emin + k.p ≤ e) (h2 : e < k.emin + k.p + (2 ^ (k.w - k.p) : ℕ) - 2)
    (r : ℕ) (hr : r < 2 ^ k.p) : ∃ b, Finite k b ∧ val k b = (2 ^ k.p + r) * 2 ^ (e - k.p) := by
  obtain ⟨q, hq⟩ : ∃ q : ℕ, (q : ℤ) = e - k.emin - k.p := ⟨(e - k.emin - k.p).toNat, by omega⟩
  refine ⟨⟨false, 2 ^ k.p * (q + 1) + r⟩, ?_, ?_⟩
  · unfold Finite infMag
    have hw : k.p ≤ k.w := by cases k <;> simp [Kind.p, Kind.w]
    have : 2 ^ k.w = 2 ^ k.p * 2 ^ (k.w - k.p) := by rw [← pow_add]; congr 1; omega
    rw [this, show 2 ^ k.p * 2 ^ (k.w - k.p) - 2 ^ k.p = 2 ^ k.p * (2 ^ (k.w - k.p) - 1) by rw [Nat.mul_sub]; simp]
    show 2 ^ k.p * (q + 1) + r < _
    have h3 : q + 1 + 1 ≤ 2 ^ (k.w - k.p) - 1 := by omega
    calc 2 ^ k.p * (q + 1) + r < 2 ^ k.p * (q + 1) + 2 ^ k.p := by omega
      _ = 2 ^ k.p * (q + 1 + 1) := by ring
      _ ≤ _ := Nat.mul_le_mul_left _ h3
  · rw [val_pos_mk, magVal, Nat.mul_add_div (by positivity), Nat.div_eq_of_lt hr, Nat.mul_add_mod, Nat.mod_eq_of_lt hr,
      if_neg (Nat.succ_ne_zero _)]
    congr 2; push_cast; omega

theorem kind_facts (k : Kind) : k.emin + k.p ≤ -100 ∧ (110 : ℤ) ≤ k.emin + k.p + (2 ^ (k.w - k.p) : ℕ) - 2 ∧ 23 ≤ k.p := by
  cases k <;> norm_num [Kind.emin, Kind.p, Kind.w]

/-- Powers of two between 2⁻¹⁰⁰ and 2¹⁰⁰ are numbers of both formats. -/
theorem pow_repr (k : Kind) (e : ℤ) (h1 : -100 ≤ e) (h2 : e ≤ 100) : ∃ b, Finite k b ∧ val k b = 2 ^ e := by
  obtain ⟨f1, f2, f3⟩ := kind_facts k
  obtain ⟨b, hb, hv⟩ := repr_of k e (by omega) (by omega) 0 (by positivity)
  refine ⟨b, hb, ?_⟩
  rw [hv, Nat.cast_zero, add_zero, ← zpow_natCast, ← zpow_add₀ (by norm_num : (2 : ℚ) ≠ 0)]
  congr 1; ring

/-- Whole numbers up to 2²³ are numbers of both formats. -/
theorem nat_repr (k : Kind) (n : ℕ) (h : n ≤ 2 ^ 23) : ∃ b, Finite k b ∧ val k b = n := by
  obtain ⟨f1, f2, f3⟩ := kind_facts k
  rcases Nat.eq_zero_or_pos n with rfl | hn
  · refine ⟨⟨false, 0⟩, ?_, by rw [val_pos_mk, magVal_zero]; rfl⟩
    cases k <;> norm_num [Finite, infMag, Kind.w, Kind.p]
  · obtain ⟨e, he⟩ : ∃ e, e = Nat.log 2 n := ⟨_, rfl⟩
    have g1 : 2 ^ e ≤ n := by rw [he]; exact Nat.pow_log_le_self 2 (by omega)
    have g2 : n < 2 ^ (e + 1) := by rw [he]; exact Nat.lt_pow_succ_log_self (by norm_num) n
    have g3 : e ≤ 23 := by
      by_contra hc
      have : 2 ^ 24 ≤ 2 ^ e := Nat.pow_le_pow_right (by norm_num) (by omega)
      omega
    obtain ⟨d, hd⟩ : ∃ d, k.p = e + d := ⟨k.p - e, by omega⟩
    obtain ⟨b, hb, hv⟩ := repr_of k e (by omega) (by omega) ((n - 2 ^ e) * 2 ^ d) (by
      rw [hd, pow_add]
      apply Nat.mul_lt_mul_of_pos_right _ (by positivity)
      rw [pow_succ] at g2; omega)
    refine ⟨b, hb, ?_⟩
    rw [hv, hd, Nat.cast_mul, Nat.cast_sub g1]
    push_cast
    rw [show ((e : ℤ) - (e + d)) = -(d : ℤ) by ring, zpow_neg, zpow_natCast]
    field_simp
    ring

/-! ## Rounding -/

theorem neg_repr {b : Bits} {v : ℚ} (h : Finite k b ∧ val k b = v) : ∃ b, Finite k b ∧ val k b = -v :=
  ⟨⟨!b.neg, b.mag⟩, h.1, by rw [← h.2]; unfold val; cases b.neg <;> simp⟩

/-- In the range of both formats. -/
def InR (x : ℚ) : Prop := |x| ≤ 2 ^ (100 : ℤ)

theorem rnd_finite {rnd : ℚ → Bits} (hr : IsRnd k rnd) {x : ℚ} (hx : InR x) : Finite k (rnd x) := by
  obtain ⟨b, hb, hv⟩ := pow_repr k 100 (by norm_num) (by norm_num)
  exact hr.fin x b hb (by rw [hv, abs_of_pos (by positivity : (0 : ℚ) < 2 ^ (100 : ℤ))]; exact hx)

theorem rnd_near {rnd : ℚ → Bits} (hr : IsRnd k rnd) {x v : ℚ} (hx : InR x) (hv : ∃ b, Finite k b ∧ val k b = v) :
    |val k (rnd x) - x| ≤ |v - x| := by
  obtain ⟨b, hb, hb2⟩ := pow_repr k 100 (by norm_num) (by norm_num)
  obtain ⟨z, hz, rfl⟩ := hv
  exact hr.nearest x b z hb (by rw [hb2, abs_of_pos (by positivity : (0 : ℚ) < 2 ^ (100 : ℤ))]; exact hx) hz

theorem rnd_ge {rnd : ℚ → Bits} (hr : IsRnd k rnd) {x v : ℚ} (hx : InR x) (hv : ∃ b, Finite k b ∧ val k b = v) (h : v ≤ x) :
    v ≤ val k (rnd x) := by
  have := rnd_near hr hx hv
  by_contra hc
  rw [abs_of_nonpos (by linarith), abs_of_nonpos (by linarith)] at this
  linarith

theorem rnd_le {rnd : ℚ → Bits} (hr : IsRnd k rnd) {x v : ℚ} (hx : InR x) (hv : ∃ b, Finite k b ∧ val k b = v) (h : x ≤ v) :
    val k (rnd x) ≤ v := by
  have := rnd_near hr hx hv
  by_contra hc
  rw [abs_of_nonneg (by linarith), abs_of_nonneg (by linarith)] at this
  linarith

theorem zero_repr (k : Kind) : ∃ b, Finite k b ∧ val k b = 0 := by simpa using nat_repr k 0 (by norm_num)

theorem inR_of {x : ℚ} {B : ℕ} (hB : B ≤ 2 ^ 23) (h : |x| ≤ B) : InR x := by
  unfold InR
  have : (B : ℚ) ≤ 2 ^ 23 := by exact_mod_cast hB
  refine h.trans (this.trans ?_)
  norm_num

/-- The integer offset: bounded, with the normal's sign, nonzero when the component is at least `1 / int_scale`. -/
theorem cast_off {rnd : ℚ → Bits} (hr : IsRnd k rnd) {v : ℚ} {B : ℕ} (hB : B ≤ 2 ^ 23) (hv : |v| ≤ B) :
    ∃ o, castInt k (val k (rnd v)) = some o ∧ |o| ≤ B ∧ (0 ≤ v → 0 ≤ o) ∧ (v ≤ 0 → o ≤ 0) ∧ (1 ≤ v → 1 ≤ o) ∧
      (v ≤ -1 → o ≤ -1) := by
  have hx := inR_of hB hv
  obtain ⟨hl, hu⟩ := abs_le.1 hv
  obtain ⟨bB, hbB⟩ := nat_repr k B hB
  obtain ⟨b1, hb1⟩ := nat_repr k 1 (by norm_num)
  have u1 := rnd_le hr hx ⟨bB, hbB⟩ hu
  have u2 := rnd_ge hr hx (neg_repr hbB) hl
  have s1 : 0 ≤ v → 0 ≤ val k (rnd v) := rnd_ge hr hx (zero_repr k)
  have s2 : v ≤ 0 → val k (rnd v) ≤ 0 := rnd_le hr hx (zero_repr k)
  have s3 : 1 ≤ v → 1 ≤ val k (rnd v) := rnd_ge hr hx ⟨b1, by simpa using hb1⟩
  have s4 : v ≤ -1 → val k (rnd v) ≤ -1 := rnd_le hr hx (by simpa using neg_repr hb1)
  generalize val k (rnd v) = x at *
  obtain ⟨o, ho⟩ : ∃ o, o = if 0 ≤ x then ⌊x⌋ else ⌈x⌉ := ⟨_, rfl⟩
  have ob : |o| ≤ B := by
    rw [abs_le, ho]
    split_ifs with h
    · refine ⟨?_, ?_⟩
      · have : (0 : ℤ) ≤ ⌊x⌋ := Int.floor_nonneg.2 h
        omega
      · have := Int.floor_le_floor u1
        simpa using this
    · push Not at h
      refine ⟨?_, ?_⟩
      · have := Int.ceil_le_ceil u2
        rwa [Int.ceil_neg, Int.floor_natCast] at this
      · have : ⌈x⌉ ≤ (0 : ℤ) := Int.ceil_le.2 (by simpa using h.le)
        omega
  refine ⟨o, ?_, ob, fun h => ?_, fun h => ?_, fun h => ?_, fun h => ?_⟩
  · unfold castInt
    simp only
    rw [← ho, if_pos]
    have hw : (2 : ℤ) ^ 31 ≤ 2 ^ k.w := by cases k <;> norm_num [Kind.w]
    rw [abs_le] at ob
    unfold inRange
    have hB' : (B : ℤ) ≤ 2 ^ 23 := by exact_mod_cast hB
    rw [decide_eq_true_eq]
    norm_num at hw hB'
    constructor <;> omega
  · rw [ho, if_pos (s1 h)]; exact Int.floor_nonneg.2 (s1 h)
  · rw [ho]; split_ifs with h'
    · have : x = 0 := le_antisymm (s2 h) h'
      simp [this]
    · exact Int.ceil_le.2 (by simpa using s2 h)
  · rw [ho, if_pos (by linarith [s3 h])]; exact Int.le_floor.2 (by simpa using s3 h)
  · rw [ho, if_neg (by linarith [s4 h])]; exact Int.ceil_le.2 (by simpa using s4 h)

theorem mag_large {m : ℕ} (h : origin k ≤ magVal k m) : 2 ^ (k.p + 1) ≤ m := by
  by_contra hc
  have h1 : magVal k m < magVal k (2 ^ (k.p + 1)) := magVal_strictMono (by omega)
  have h2 : magVal k (2 ^ (k.p + 1)) = 2 ^ (k.p + 1 + k.emin) := by
    unfold magVal
    rw [pow_succ, Nat.mul_div_cancel_left _ (by positivity), Nat.mul_mod_right]
    rw [if_neg (by norm_num)]
    push_cast
    rw [add_zero, ← zpow_natCast, ← zpow_add₀ (by norm_num : (2 : ℚ) ≠ 0)]
    congr 1; ring
  obtain ⟨f1, _, _⟩ := kind_facts k
  have h3 : (2 : ℚ) ^ (k.p + 1 + k.emin : ℤ) ≤ 2 ^ (-10 : ℤ) := zpow_le_zpow_right₀ (by norm_num) (by omega)
  have h4 : (2 : ℚ) ^ (-10 : ℤ) < origin k := by cases k <;> norm_num [origin]
  rw [h2] at h1
  linarith

/-- A change of the magnitude bits by at most `B` changes the number by at most `B` units in the last place. -/
theorem mag_change {m m' B : ℕ} (hm : 2 ^ k.p ≤ m) (hm' : 2 ^ k.p ≤ m') (h : |(m' : ℤ) - m| ≤ B) :
    |magVal k m' - magVal k m| ≤ B * (max (magVal k m) (magVal k m') / 2 ^ k.p) := by
  rw [abs_le] at h
  rcases le_total m m' with hle | hle
  · obtain ⟨j, rfl⟩ := Nat.exists_eq_add_of_le hle
    have hj : j ≤ B := by omega
    rw [abs_of_nonneg (by linarith [magVal_strictMono (k := k).monotone hle]), max_eq_right (magVal_strictMono.monotone hle)]
    refine (up_bound hm j).trans ?_
    have := magVal_nonneg (k := k) (m + j)
    gcongr
  · obtain ⟨j, rfl⟩ := Nat.exists_eq_add_of_le hle
    have hj : j ≤ B := by omega
    rw [abs_of_nonpos (by linarith [magVal_strictMono (k := k).monotone hle]), max_eq_left (magVal_strictMono.monotone hle), neg_sub]
    refine (up_bound hm' j).trans ?_
    have := magVal_nonneg (k := k) (m' + j)
    gcongr

theorem next_up {x : Bits} (hx : x.mag + 1 < infMag k) (ho : |val k x| < origin k) :
    ∃ v, (∃ b, Finite k b ∧ val k b = v) ∧ val k x < v ∧ v ≤ val k x + floatScale k / intScale k := by
  obtain ⟨_, _, _, _, c1, c2⟩ := consts k
  obtain ⟨neg, m⟩ := x
  have hu : ∀ m', magVal k m' < origin k → ulp k m' ≤ floatScale k / intScale k := by
    intro m' h
    refine (ulp_le m').trans (max_le c1.le (le_trans ?_ c2.le))
    gcongr
  rw [abs_val] at ho
  simp only at ho hx
  have hp := ulp_pos (k := k)
  cases neg with
  | false =>
    refine ⟨_, ⟨⟨false, m + 1⟩, hx, rfl⟩, ?_, ?_⟩
    · rw [val_pos_mk, val_pos_mk, magVal_succ]; linarith [hp m]
    · rw [val_pos_mk, val_pos_mk, magVal_succ]; linarith [hu m ho]
  | true =>
    rcases Nat.eq_zero_or_pos m with rfl | hm
    · refine ⟨_, ⟨⟨false, 1⟩, by simpa [Finite] using hx, rfl⟩, ?_, ?_⟩
      · rw [val_neg_mk, val_pos_mk, show (1 : ℕ) = 0 + 1 from rfl, magVal_succ, magVal_zero]; linarith [hp 0]
      · rw [val_neg_mk, val_pos_mk, show (1 : ℕ) = 0 + 1 from rfl, magVal_succ, magVal_zero]
        linarith [hu 0 ho]
    · obtain ⟨m', rfl⟩ : ∃ m', m = m' + 1 := ⟨m - 1, by omega⟩
      refine ⟨_, ⟨⟨true, m'⟩, by unfold Finite; simp only; omega, rfl⟩, ?_, ?_⟩
      · rw [val_neg_mk, val_neg_mk, magVal_succ]; linarith [hp m']
      · rw [val_neg_mk, val_neg_mk, magVal_succ]
        rw [magVal_succ] at ho
        linarith [hu m' (by linarith [hp m'])]

theorem val_flip (b : Bits) : val k ⟨!b.neg, b.mag⟩ = -val k b := by unfold val; cases b.neg <;> simp

theorem next_down {x : Bits} (hx : x.mag + 1 < infMag k) (ho : |val k x| < origin k) :
    ∃ v, (∃ b, Finite k b ∧ val k b = v) ∧ v < val k x ∧ val k x - floatScale k / intScale k ≤ v := by
  obtain ⟨v, ⟨b, hb⟩, h1, h2⟩ := next_up (k := k) (x := ⟨!x.neg, x.mag⟩) hx (by rw [val_flip, abs_neg]; exact ho)
  rw [val_flip] at h1 h2
  exact ⟨-v, neg_repr hb, by linarith, by linarith⟩

/-! ## Specification -/

/-- The hypotheses on a coordinate: a normal component of at most `B / int_scale` (`B = 256` for `float` when it is at most one), a
coordinate at least `B` numbers away from infinity and, if its sign bit is set, from zero. -/
structure Coord (k : Kind) (B : ℕ) (x n : Bits) : Prop where
  small : B ≤ 2 ^ 22
  finite : Finite k n
  normal : |intScale k * val k n| ≤ B
  below : x.mag + B + 1 < infMag k
  above : x.neg = true → B ≤ x.mag

/-- What the offset does to a coordinate. -/
structure Moved (k : Kind) (B : ℕ) (x n r : Bits) : Prop where
  finite : Finite k r
  /-- never against the normal -/
  up : 0 ≤ val k n → val k x ≤ val k r
  down : val k n ≤ 0 → val k r ≤ val k x
  /-- strictly along a normal component of at least `1 / int_scale` -/
  upStrict : 1 / intScale k ≤ val k n → val k x < val k r
  downStrict : val k n ≤ -(1 / intScale k) → val k r < val k x
  /-- near zero by at most four times `float_scale` times the component -/
  near : |val k x| < origin k → |val k r - val k x| ≤ 4 * floatScale k * |val k n|
  /-- elsewhere by at most `B` units in the last place -/
  far : origin k ≤ |val k x| → |val k r - val k x| ≤ B * (max |val k x| |val k r| / 2 ^ k.p)

theorem scale_pow (k : Kind) : ∃ e : ℤ, -100 ≤ e ∧ e ≤ 100 ∧ floatScale k / intScale k = 2 ^ e := by
  cases k
  · exact ⟨-24, by norm_num, by norm_num, by norm_num [floatScale, intScale]⟩
  · exact ⟨-48, by norm_num, by norm_num, by norm_num [floatScale, intScale]⟩

theorem asInt_ofInt (k : Kind) {m' : ℕ} (neg : Bool) (h : m' < 2 ^ k.w) :
    inRange k ((m' : ℤ) - (if neg then 2 ^ k.w else 0)) = true ∧
    ofInt k ((m' : ℤ) - (if neg then 2 ^ k.w else 0)) = ⟨neg, m'⟩ := by
  have h' : (m' : ℤ) < 2 ^ k.w := by exact_mod_cast h
  have hpos : (0 : ℤ) < 2 ^ k.w := by positivity
  unfold inRange ofInt
  cases neg
  · simp only [Bool.false_eq_true, if_false, sub_zero]
    refine ⟨by rw [decide_eq_true_eq]; omega, ?_⟩
    rw [if_neg (by omega)]; simp
  · simp only [if_true]
    refine ⟨by rw [decide_eq_true_eq]; omega, ?_⟩
    rw [if_pos (by omega)]; simp

/-- **C69.**  Every coordinate within the hypotheses moves towards the side the normal points to, by a bounded amount, whatever way
ties are rounded. -/
theorem C69_coordinate {rnd : ℚ → Bits} (hr : IsRnd k rnd) (B : ℕ) (x n : Bits) (h : Coord k B x n) :
    ∃ r, offset1 k rnd x n = some r ∧ Moved k B x n r := by
  obtain ⟨hI, hF, hO, hIF, c1, c2⟩ := consts k
  obtain ⟨f1, f2, f3⟩ := kind_facts k
  have hB23 : B ≤ 2 ^ 23 := h.small.trans (by norm_num)
  have hBp : B ≤ 2 ^ k.p := hB23.trans (Nat.pow_le_pow_right (by norm_num) f3)
  obtain ⟨o, ho, hob, ho0, ho0', ho1, ho1'⟩ := cast_off hr hB23 h.normal
  have hinf : infMag k ≤ 2 ^ k.w := Nat.sub_le _ _
  obtain ⟨ol, ou⟩ := abs_le.1 hob
  have hbelow := h.below
  -- sign facts of the scaled normal
  have t0 : 0 ≤ val k n → 0 ≤ intScale k * val k n := fun h => mul_nonneg hI.le h
  have t0' : val k n ≤ 0 → intScale k * val k n ≤ 0 := fun h => mul_nonpos_of_nonneg_of_nonpos hI.le h
  have t1 : 1 / intScale k ≤ val k n → 1 ≤ intScale k * val k n := fun h => by
    rw [div_le_iff₀ hI] at h; linarith
  have t1' : val k n ≤ -(1 / intScale k) → intScale k * val k n ≤ -1 := fun h => by
    have : 1 / intScale k ≤ -val k n := by linarith
    rw [div_le_iff₀ hI] at this; linarith
  by_cases hsm : |val k x| < origin k
  · -- direct offset
    have hrange : inRange k (asInt k x + if val k x < 0 then -o else o) = true := by
      obtain ⟨neg, m⟩ := x
      have hm : (m : ℤ) < 2 ^ k.w := by
        have : m < 2 ^ k.w := by simp only at hbelow; omega
        exact_mod_cast this
      have hB' : (m : ℤ) + B < 2 ^ k.w := by
        have : m + B < 2 ^ k.w := by simp only at hbelow; omega
        exact_mod_cast this
      have hpos : (2 : ℤ) ^ 31 ≤ 2 ^ k.w := by cases k <;> norm_num [Kind.w]
      have hB2 : (B : ℤ) ≤ 2 ^ 23 := by exact_mod_cast hB23
      norm_num at hpos hB2
      unfold inRange asInt
      rw [decide_eq_true_eq]
      cases neg
      · simp only [Bool.false_eq_true, if_false]
        rw [if_neg (by rw [val_pos_mk]; exact not_lt.2 (magVal_nonneg _))]
        omega
      · have hab := h.above rfl
        simp only at hab
        simp only [if_true]
        split_ifs with hs
        · omega
        · have : m = 0 := by
            by_contra hc
            exact hs (by rw [val_neg_mk]; linarith [magVal_pos (k := k) (Nat.pos_of_ne_zero hc)])
          subst this
          have : B = 0 := by omega
          omega
    refine ⟨rnd (val k x + val k (rnd (floatScale k * val k n))), ?_, ?_⟩
    · unfold offset1
      simp only [ho, Option.bind_eq_bind, Option.bind_some, hrange, if_true, if_pos hsm, Option.pure_def]
    · -- the displacement
      have hB2 : (B : ℚ) ≤ 2 ^ 23 := by exact_mod_cast hB23
      have hn : |val k n| ≤ 2 ^ 23 := by
        have h1 : (1 : ℚ) ≤ intScale k := by cases k <;> norm_num [intScale]
        have h2 := h.normal
        rw [abs_mul, abs_of_pos hI] at h2
        nlinarith [abs_nonneg (val k n)]
      have hd0 : |floatScale k * val k n| ≤ 2 ^ 23 := by
        rw [abs_mul, abs_of_pos hF]
        have : floatScale k ≤ 1 := by cases k <;> norm_num [floatScale]
        nlinarith [abs_nonneg (val k n)]
      have hRd : InR (floatScale k * val k n) := inR_of (B := 2 ^ 23) le_rfl (by exact_mod_cast hd0)
      have hdn : |val k (rnd (floatScale k * val k n))| ≤ 2 * |floatScale k * val k n| := by
        have := rnd_near hr hRd (zero_repr k)
        rw [zero_sub, abs_neg] at this
        have h2 := abs_sub_abs_le_abs_sub (val k (rnd (floatScale k * val k n))) (floatScale k * val k n)
        linarith
      obtain ⟨e, he1, he2, he⟩ := scale_pow k
      have d0 : 0 ≤ val k n → 0 ≤ val k (rnd (floatScale k * val k n)) := fun h =>
        rnd_ge hr hRd (zero_repr k) (mul_nonneg hF.le h)
      have d0' : val k n ≤ 0 → val k (rnd (floatScale k * val k n)) ≤ 0 := fun h =>
        rnd_le hr hRd (zero_repr k) (mul_nonpos_of_nonneg_of_nonpos hF.le h)
      have d1 : 1 / intScale k ≤ val k n → floatScale k / intScale k ≤ val k (rnd (floatScale k * val k n)) := fun h => by
        refine rnd_ge hr hRd (by rw [he]; exact pow_repr k e he1 he2) ?_
        calc floatScale k / intScale k = floatScale k * (1 / intScale k) := by ring
          _ ≤ _ := mul_le_mul_of_nonneg_left h hF.le
      have d1' : val k n ≤ -(1 / intScale k) → val k (rnd (floatScale k * val k n)) ≤ -(floatScale k / intScale k) := fun h => by
        refine rnd_le hr hRd (by rw [he]; obtain ⟨b, hb⟩ := pow_repr k e he1 he2; exact neg_repr hb) ?_
        calc floatScale k * val k n ≤ floatScale k * (-(1 / intScale k)) := mul_le_mul_of_nonneg_left h hF.le
          _ = _ := by ring
      have hRx : InR (val k x + val k (rnd (floatScale k * val k n))) := by
        unfold InR
        refine (abs_add_le _ _).trans ?_
        have : origin k ≤ 1 := by cases k <;> norm_num [origin]
        have e : (2 : ℚ) ^ (100 : ℤ) = 2 ^ 100 := by norm_cast
        rw [e, show (2 : ℚ) ^ 100 = 1267650600228229401496703205376 by norm_num]
        rw [show (2 : ℚ) ^ 23 = 8388608 by norm_num] at hd0
        linarith
      have hxF : Finite k x := by unfold Finite; omega
      have hxr : ∃ b, Finite k b ∧ val k b = val k x := ⟨x, hxF, rfl⟩
      have hx1 : x.mag + 1 < infMag k := by omega
      refine ⟨rnd_finite hr hRx, fun h => rnd_ge hr hRx hxr (by linarith [d0 h]),
        fun h => rnd_le hr hRx hxr (by linarith [d0' h]), fun h => ?_, fun h => ?_, fun _ => ?_, fun h => absurd hsm (not_lt.2 h)⟩
      · obtain ⟨v, hv, hv1, hv2⟩ := next_up hx1 hsm
        exact hv1.trans_le (rnd_ge hr hRx hv (by linarith [d1 h]))
      · obtain ⟨v, hv, hv1, hv2⟩ := next_down hx1 hsm
        exact (rnd_le hr hRx hv (by linarith [d1' h])).trans_lt hv1
      · have h1 := rnd_near hr hRx hxr
        generalize val k (rnd (floatScale k * val k n)) = d at *
        generalize val k (rnd (val k x + d)) = r at *
        have h2 : |r - val k x| ≤ |r - (val k x + d)| + |d| := by
          calc |r - val k x| = |(r - (val k x + d)) + d| := by congr 1; ring
            _ ≤ _ := abs_add_le _ _
        have h3 : |val k x - (val k x + d)| = |d| := by rw [← abs_neg]; congr 1; ring
        rw [h3] at h1
        rw [abs_mul, abs_of_pos hF] at hdn
        linarith
  · -- integer offset
    push Not at hsm
    obtain ⟨neg, m⟩ := x
    have hlarge := hsm
    rw [abs_val] at hlarge
    have hm := mag_large hlarge
    simp only at hm hbelow
    have hmpos : 0 < magVal k m := magVal_pos (lt_of_lt_of_le (by positivity) hm)
    rw [pow_succ] at hm
    have hneg : (val k ⟨neg, m⟩ < 0) ↔ neg = true := by
      cases neg
      · rw [val_pos_mk]; simp [hmpos.le]
      · rw [val_neg_mk]; simp [hmpos]
    obtain ⟨m', hm'⟩ : ∃ m' : ℕ, (m' : ℤ) = m + (if neg then -o else o) := by
      refine ⟨((m : ℤ) + (if neg then -o else o)).toNat, ?_⟩
      rw [Int.toNat_of_nonneg]
      split_ifs <;> omega
    have hm'p : 2 ^ k.p ≤ m' := by cases neg <;> simp at hm' <;> omega
    have hm'i : m' < infMag k := by cases neg <;> simp at hm' <;> omega
    have hs : asInt k ⟨neg, m⟩ + (if val k ⟨neg, m⟩ < 0 then -o else o) = (m' : ℤ) - (if neg then 2 ^ k.w else 0) := by
      simp only [hneg, asInt]
      cases neg
      · simp at hm' ⊢; omega
      · simp at hm' ⊢; omega
    obtain ⟨q1, q2⟩ := asInt_ofInt k neg (show m' < 2 ^ k.w by omega)
    refine ⟨⟨neg, m'⟩, ?_, hm'i, fun h => ?_, fun h => ?_, fun h => ?_, fun h => ?_, fun h => absurd hsm (not_le.2 h), fun _ => ?_⟩
    · unfold offset1
      simp only [ho, Option.bind_eq_bind, Option.bind_some, hs, q1, q2, if_true, if_neg (not_lt.2 hsm), Option.pure_def]
    · have := ho0 (t0 h)
      cases neg
      · rw [val_pos_mk, val_pos_mk]; exact magVal_strictMono.monotone (by simp at hm'; omega)
      · rw [val_neg_mk, val_neg_mk]; exact neg_le_neg (magVal_strictMono.monotone (by simp at hm'; omega))
    · have := ho0' (t0' h)
      cases neg
      · rw [val_pos_mk, val_pos_mk]; exact magVal_strictMono.monotone (by simp at hm'; omega)
      · rw [val_neg_mk, val_neg_mk]; exact neg_le_neg (magVal_strictMono.monotone (by simp at hm'; omega))
    · have := ho1 (t1 h)
      cases neg
      · rw [val_pos_mk, val_pos_mk]; exact magVal_strictMono (by simp at hm'; omega)
      · rw [val_neg_mk, val_neg_mk]; exact neg_lt_neg (magVal_strictMono (by simp at hm'; omega))
    · have := ho1' (t1' h)
      cases neg
      · rw [val_pos_mk, val_pos_mk]; exact magVal_strictMono (by simp at hm'; omega)
      · rw [val_neg_mk, val_neg_mk]; exact neg_lt_neg (magVal_strictMono (by simp at hm'; omega))
    · rw [abs_val, abs_val]
      have hc : |(m' : ℤ) - m| ≤ B := by
        rw [hm']; rw [abs_le]; split_ifs <;> constructor <;> omega
      have := mag_change (k := k) (by omega) hm'p hc
      cases neg
      · rw [val_pos_mk, val_pos_mk]; exact this
      · rw [val_neg_mk, val_neg_mk, show -magVal k m' - -magVal k m = -(magVal k m' - magVal k m) by ring, abs_neg]; exact this

/-! ## The whole point -/

/-- `r` is displaced from `p` towards the side `n` points to. -/
def OnSide (k : Kind) (p r n : B3) : Prop :=
  0 < (val k r.x - val k p.x) * val k n.x + (val k r.y - val k p.y) * val k n.y + (val k r.z - val k p.z) * val k n.z

theorem Coord.flip {B : ℕ} {x n : Bits} (h : Coord k B x n) : Coord k B x ⟨!n.neg, n.mag⟩ :=
  ⟨h.small, h.finite, by rw [val_flip, mul_neg, abs_neg]; exact h.normal, h.below, h.above⟩

theorem Moved.prod {B : ℕ} {x n r : Bits} (h : Moved k B x n r) : 0 ≤ (val k r - val k x) * val k n := by
  rcases le_total 0 (val k n) with h0 | h0
  · exact mul_nonneg (by linarith [h.up h0]) h0
  · exact mul_nonneg_of_nonpos_of_nonpos (by linarith [h.down h0]) h0

theorem Moved.prod_pos {B : ℕ} {x n r : Bits} (h : Moved k B x n r) (hn : 1 / intScale k ≤ |val k n|) :
    0 < (val k r - val k x) * val k n := by
  have hI := (consts k).1
  have hp : 0 < 1 / intScale k := by positivity
  rcases le_total 0 (val k n) with h0 | h0
  · rw [abs_of_nonneg h0] at hn
    exact mul_pos (by linarith [h.upStrict hn]) (by linarith)
  · rw [abs_of_nonpos h0] at hn
    exact mul_pos_of_neg_of_neg (by linarith [h.downStrict (by linarith)]) (by linarith)

/-- **C69.**  The offset point is strictly on the side of the tangent plane the normal points to. -/
theorem C69_side {rnd : ℚ → Bits} (hr : IsRnd k rnd) (B : ℕ) (p n : B3) (hx : Coord k B p.x n.x) (hy : Coord k B p.y n.y)
    (hz : Coord k B p.z n.z) (hn : 1 / 2 ≤ val k n.x ^ 2 + val k n.y ^ 2 + val k n.z ^ 2) :
    ∃ r, offset k rnd p n = some r ∧ Moved k B p.x n.x r.x ∧ Moved k B p.y n.y r.y ∧ Moved k B p.z n.z r.z ∧
      OnSide k p r n := by
  obtain ⟨rx, ex, mx⟩ := C69_coordinate hr B p.x n.x hx
  obtain ⟨ry, ey, my⟩ := C69_coordinate hr B p.y n.y hy
  obtain ⟨rz, ez, mz⟩ := C69_coordinate hr B p.z n.z hz
  refine ⟨⟨rx, ry, rz⟩, by simp [offset, ex, ey, ez], mx, my, mz, ?_⟩
  unfold OnSide
  have hI : (256 : ℚ) ≤ intScale k := by cases k <;> norm_num [intScale]
  have hs : 1 / intScale k ≤ 1 / 256 := one_div_le_one_div_of_le (by norm_num) hI
  have p1 := mx.prod
  have p2 := my.prod
  have p3 := mz.prod
  have key : ∀ v : ℚ, ¬ (1 / intScale k ≤ |v|) → v ^ 2 ≤ 1 / 256 := by
    intro v hv
    push Not at hv
    have h1 : |v| ≤ 1 / 256 := hv.le.trans hs
    rw [← sq_abs]
    nlinarith [abs_nonneg v]
  by_cases h1 : 1 / intScale k ≤ |val k n.x|
  · have := mx.prod_pos h1; simp only; linarith
  by_cases h2 : 1 / intScale k ≤ |val k n.y|
  · have := my.prod_pos h2; simp only; linarith
  by_cases h3 : 1 / intScale k ≤ |val k n.z|
  · have := mz.prod_pos h3; simp only; linarith
  have := key _ h1
  have := key _ h2
  have := key _ h3
  norm_num at hn ⊢
  linarith

/-- The inner product of two vectors of bit patterns (specification). -/
def inner (k : Kind) (a b : B3) : ℚ := val k b.z * val k a.z + (val k b.y * val k a.y + val k b.x * val k a.x)

/-- **C69.**  A secondary ray starts on the side of the surface it travels to: for a bounce or shadow direction `d` the origin is
displaced along a normal that does not point away from `d`, and is `±` the surface normal. -/
theorem C69_secondary {rnd : ℚ → Bits} (hr : IsRnd k rnd) (B : ℕ) (p n d : B3) (hx : Coord k B p.x n.x)
    (hy : Coord k B p.y n.y) (hz : Coord k B p.z n.z) (hn : 1 / 2 ≤ val k n.x ^ 2 + val k n.y ^ 2 + val k n.z ^ 2) :
    ∃ r, offset k rnd p (faceNormal k d n) = some r ∧ (0 < inner k d n → OnSide k p r n) ∧
      (inner k d n < 0 → OnSide k p r n.flip) ∧ (inner k d n = 0 → OnSide k p r n) ∧
      0 ≤ inner k d (faceNormal k d n) := by
  have hin : ∀ m, inner k d m = dot k d m := fun m => by unfold inner dot; ring
  simp only [hin]
  unfold faceNormal
  split_ifs with h
  · obtain ⟨r, hr1, -, -, -, hr2⟩ := C69_side hr B p n.flip hx.flip hy.flip hz.flip (by
      simp only [B3.flip, val_flip, neg_sq]; exact hn)
    refine ⟨r, hr1, fun h' => absurd h (by linarith), fun _ => hr2, fun h' => absurd h (by linarith), ?_⟩
    simp only [dot, B3.flip, val_flip] at h ⊢
    linarith
  · obtain ⟨r, hr1, -, -, -, hr2⟩ := C69_side hr B p n hx hy hz hn
    exact ⟨r, hr1, fun _ => hr2, fun h' => absurd h' h, fun _ => hr2, by linarith⟩

/-- **C69 in full**: every coordinate moves strictly towards the side its normal component points to. -/
def C69_full : Prop := ∀ (rnd : ℚ → Bits), IsRnd .single rnd → ∀ x n : Bits, Finite .single x → Finite .single n →
  |val .single n| ≤ 1 → ∃ r, offset1 .single rnd x n = some r ∧ (0 < val .single n → val .single x < val .single r)

theorem rnd_exact {rnd : ℚ → Bits} (hr : IsRnd k rnd) {v : ℚ} (hx : InR v) (hv : ∃ b, Finite k b ∧ val k b = v) :
    val k (rnd v) = v := le_antisymm (rnd_le hr hx hv le_rfl) (rnd_ge hr hx hv le_rfl)

/-- A rounding to nearest exists. -/
theorem rnd_exists (k : Kind) : ∃ rnd, IsRnd k rnd := by
  have h : ∀ x : ℚ, ∃ b, Finite k b ∧ ∀ z, Finite k z → |val k b - x| ≤ |val k z - x| := by
    intro x
    let S : Finset Bits := ((Finset.range (infMag k)) ×ˢ (Finset.univ : Finset Bool)).image (fun q => ⟨q.2, q.1⟩)
    have hS : ∀ b, b ∈ S ↔ Finite k b := by
      intro b
      simp only [S, Finset.mem_image, Finset.mem_product, Finset.mem_range, Finset.mem_univ, and_true, Finite]
      constructor
      · rintro ⟨q, hq, rfl⟩; exact hq
      · intro hb; exact ⟨(b.mag, b.neg), hb, rfl⟩
    have hne : S.Nonempty := by
      obtain ⟨b, hb, _⟩ := zero_repr k
      exact ⟨b, (hS b).2 hb⟩
    obtain ⟨b, hb, hmin⟩ := Finset.exists_min_image S (fun b => |val k b - x|) hne
    exact ⟨b, (hS b).1 hb, fun z hz => hmin z ((hS z).2 hz)⟩
  choose rnd h1 h2 using h
  exact ⟨rnd, fun x _ _ _ => h1 x, fun x _ z _ _ hz => h2 x z hz⟩

theorem inR_small {x : ℚ} (h : |x| ≤ 1000) : InR x := inR_of (B := 1000) (by norm_num) (by exact_mod_cast h)

/-- The point one does not move along a normal component of 1/512. -/
theorem C69_not_moved {rnd : ℚ → Bits} (hr : IsRnd .single rnd) :
    val .single ⟨false, 127 * 2 ^ 23⟩ = 1 ∧ val .single ⟨false, 118 * 2 ^ 23⟩ = 1 / 512 ∧
    offset1 .single rnd ⟨false, 127 * 2 ^ 23⟩ ⟨false, 118 * 2 ^ 23⟩ = some ⟨false, 127 * 2 ^ 23⟩ := by
  have v1 : val .single ⟨false, 127 * 2 ^ 23⟩ = 1 := by norm_num [val, magVal, Kind.p, Kind.emin]
  have v2 : val .single ⟨false, 118 * 2 ^ 23⟩ = 1 / 512 := by norm_num [val, magVal, Kind.p, Kind.emin]
  refine ⟨v1, v2, ?_⟩
  have v3 : val .single (rnd (intScale .single * (1 / 512))) = 1 / 2 := by
    rw [show intScale .single * (1 / 512) = 1 / 2 by norm_num [intScale]]
    refine rnd_exact hr (inR_small (by norm_num)) ?_
    obtain ⟨b, hb⟩ := pow_repr .single (-1) (by norm_num) (by norm_num)
    exact ⟨b, hb.1, by rw [hb.2]; norm_num⟩
  unfold offset1
  rw [v1, v2, v3]
  norm_num [castInt, inRange, Kind.w, asInt, ofInt, origin]
  rfl

/-- **C69 does not hold in full.** -/
theorem C69_violated : ¬ C69_full := by
  intro h
  obtain ⟨rnd, hr⟩ := rnd_exists .single
  obtain ⟨v1, v2, v3⟩ := C69_not_moved hr
  obtain ⟨r, h1, h2⟩ := h rnd hr ⟨false, 127 * 2 ^ 23⟩ ⟨false, 118 * 2 ^ 23⟩ (by norm_num [Finite, infMag, Kind.w, Kind.p])
    (by norm_num [Finite, infMag, Kind.w, Kind.p]) (by rw [v2]; norm_num)
  rw [v3, Option.some.injEq] at h1
  subst h1
  have := h2 (by rw [v2]; norm_num)
  linarith

/-- For the coordinate `-0.0` and a negative normal component the integer addition overflows: undefined behaviour. -/
theorem C69_overflow {rnd : ℚ → Bits} (hr : IsRnd .single rnd) :
    val .single ⟨true, 126 * 2 ^ 23⟩ = -(1 / 2) ∧ offset1 .single rnd ⟨true, 0⟩ ⟨true, 126 * 2 ^ 23⟩ = none := by
  have v2 : val .single ⟨true, 126 * 2 ^ 23⟩ = -(1 / 2) := by norm_num [val, magVal, Kind.p, Kind.emin]
  refine ⟨v2, ?_⟩
  have v3 : val .single (rnd (intScale .single * -(1 / 2))) = -128 := by
    rw [show intScale .single * -(1 / 2) = -128 by norm_num [intScale]]
    refine rnd_exact hr (inR_small (by norm_num)) ?_
    obtain ⟨b, hb⟩ := nat_repr .single 128 (by norm_num)
    exact neg_repr ⟨hb.1, by rw [hb.2]; norm_num⟩
  have v1 : val .single ⟨true, 0⟩ = 0 := by norm_num [val, magVal, Kind.p]
  unfold offset1
  rw [v1, v2, v3]
  have c : castInt .single (-128) = some (-128) := by
    have : ⌈(-128 : ℚ)⌉ = -128 := by rw [show (-128 : ℚ) = ((-128 : ℤ) : ℚ) by norm_num, Int.ceil_intCast]
    unfold castInt
    simp only [if_neg (by norm_num : ¬ (0 : ℚ) ≤ -128), this]
    rfl
  simp only [c, Option.bind_eq_bind, Option.bind_some]
  norm_num [asInt, inRange, Kind.w]

/-- A point at (1, -2, 0) with the normal (1/2, -1/4, 3/4) meets the hypotheses for `float`. -/
example : Coord .single 256 ⟨false, 127 * 2 ^ 23⟩ ⟨false, 126 * 2 ^ 23⟩ ∧ Coord .single 256 ⟨true, 128 * 2 ^ 23⟩ ⟨true, 125 * 2 ^ 23⟩ ∧
    Coord .single 256 ⟨false, 0⟩ ⟨false, 126 * 2 ^ 23 + 2 ^ 22⟩ ∧
    (1 : ℚ) / 2 ≤ val .single ⟨false, 126 * 2 ^ 23⟩ ^ 2 + val .single ⟨true, 125 * 2 ^ 23⟩ ^ 2 +
      val .single ⟨false, 126 * 2 ^ 23 + 2 ^ 22⟩ ^ 2 ∧ val .single ⟨true, 128 * 2 ^ 23⟩ = -2 := by
  refine ⟨⟨?_, ?_, ?_, ?_, ?_⟩, ⟨?_, ?_, ?_, ?_, ?_⟩, ⟨?_, ?_, ?_, ?_, ?_⟩, ?_, ?_⟩ <;>
    norm_num [val, magVal, Kind.p, Kind.emin, Finite, infMag, Kind.w, intScale]

end Huira.Offset
