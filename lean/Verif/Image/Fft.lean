import Verif.Image.Props
import Mathlib.RingTheory.RootsOfUnity.Complex
import Mathlib.Algebra.BigOperators.Field

/-!
# The convolution through FFTW (C19)

Models `convolve_fft_` (`image.ipp` 649-758) at the level of its buffers: packing, the two forward transforms, the pointwise
product of the half spectra, the inverse transform and the scaling.  FFTW is a contract taken from its documentation ("The
Halfcomplex / Multi-Dimensional DFTs of Real Data"): `fftwf_plan_dft_r2c_2d(n0, n1)` writes the first `n1 / 2 + 1` columns of
the discrete Fourier transform, and `fftwf_plan_dft_c2r_2d(n0, n1)` undoes it up to the factor `n0 n1`; what it does with
arrays that are not such a half is left open.

Simplifications: exact reals instead of `float`; the indices `y * pw + x` are computed with `int` and do not overflow, that is
the padded image has less than 2^31 pixels; one channel (the loop over the channels treats them one after the other).
-/

set_option linter.unusedSimpArgs false

namespace Huira.Image

noncomputable section
open Finset Complex

/-! ### The contract of FFTW -/

/-- Entry `(k0, k1)` of the discrete Fourier transform of an `n0 × n1` array stored by rows. -/
def dft2 (n0 n1 : ℕ) (x : ℕ → ℝ) (k0 k1 : ℕ) : ℂ :=
  ∑ j0 ∈ range n0, ∑ j1 ∈ range n1, (x (j0 * n1 + j1) : ℂ) * exp (-(2 * Real.pi * I) * (j0 * k0 / n0 + j1 * k1 / n1))

/-- `fftwf_plan_dft_r2c_2d(n0, n1, in, out)`: the columns up to `n1 / 2`, stored by rows. -/
def r2c (n0 n1 : ℕ) (x : ℕ → ℝ) (c : ℕ) : ℂ := dft2 n0 n1 x (c / (n1 / 2 + 1)) (c % (n1 / 2 + 1))

/-- `fftwf_plan_dft_c2r_2d(n0, n1, in, out)`: the unnormalised inverse of `r2c`. -/
def IsC2R (n0 n1 : ℕ) (c2r : (ℕ → ℂ) → ℕ → ℝ) : Prop :=
  ∀ (F : ℕ → ℂ) (x : ℕ → ℝ), (∀ c < n0 * (n1 / 2 + 1), F c = r2c n0 n1 x c) → ∀ j < n0 * n1, c2r F j = (n0 * n1 : ℕ) * x j

/-! ### The code -/

/-- A store into a buffer. -/
def put (b : ℕ → ℝ) (i : ℕ) (v : ℝ) : ℕ → ℝ := fun j => if j = i then v else b j

/-- `(k - kc + p) % p` for `int` (`image.ipp` 712-713); the dividend is not negative. -/
def dstN (p kc k : ℕ) : ℕ := (k + p - kc) % p

/-- The kernel in its buffer (`image.ipp` 709-717): `memset` and two loops of stores. -/
def packK (pw ph kw kh : ℕ) (ker : ℕ → ℕ → ℝ) : ℕ → ℝ :=
  (List.range kh).foldl (fun b ky =>
    (List.range kw).foldl (fun b kx => put b (dstN ph (kh / 2) ky * pw + dstN pw (kw / 2) kx) (ker kx ky)) b) fun _ => 0

/-- The image in its buffer (`image.ipp` 721-726). -/
def packI (pw w h : ℕ) (img : ℤ → ℤ → ℝ) : ℕ → ℝ :=
  (List.range h).foldl (fun b y => (List.range w).foldl (fun b x => put b (y * pw + x) (img x y)) b) fun _ => 0

/-- The pointwise product (`image.ipp` 730-735). -/
def mulC (a b : ℂ) : ℂ := ⟨a.re * b.re - a.im * b.im, a.re * b.im + a.im * b.re⟩

/-- `convolve_fft_` (`image.ipp` 649-758), pixel `(x, y)` of the result. -/
def convolveFft (c2r : (ℕ → ℂ) → ℕ → ℝ) (w h : ℕ) (img : ℤ → ℤ → ℝ) (kw kh : ℕ) (ker : ℕ → ℕ → ℝ) (x y : ℕ) : ℝ :=
  let pw := w + kw - 1
  let ph := h + kh - 1
  let norm := 1 / ((pw * ph : ℕ) : ℝ)
  let freqB := r2c ph pw (packK pw ph kw kh ker)
  let freqA := r2c ph pw (packI pw w h img)
  c2r (fun i => mulC (freqA i) (freqB i)) (y * pw + x) * norm

/-! ### The buffers hold what they should -/

theorem mulC_eq (a b : ℂ) : mulC a b = a * b := by
  apply Complex.ext <;> simp [mulC]

/-- Stores to distinct cells. -/
theorem puts_eq {ι : Type} (l : List ι) (key : ι → ℕ) (val : ι → ℝ) (b : ℕ → ℝ) (c : ℕ) (hn : (l.map key).Nodup) :
    l.foldl (fun b i => put b (key i) (val i)) b c =
      if c ∈ l.map key then (l.map fun i => if key i = c then val i else 0).sum else b c := by
  induction l generalizing b with
  | nil => simp
  | cons a l ih =>
    simp only [List.map_cons, List.nodup_cons] at hn
    rw [List.foldl_cons, ih _ hn.2]
    simp only [List.map_cons, List.mem_cons, List.sum_cons]
    by_cases hc : c = key a
    · subst hc
      rw [if_neg hn.1, if_pos (Or.inl rfl), if_pos rfl, put, if_pos rfl]
      have : (l.map fun i => if key i = key a then val i else 0).sum = 0 := by
        apply List.sum_eq_zero
        intro z hz
        obtain ⟨i, hi, rfl⟩ := List.mem_map.1 hz
        rw [if_neg]
        intro e; exact hn.1 (e ▸ List.mem_map_of_mem hi)
      rw [this, add_zero]
    · have e1 : ¬ key a = c := fun h => hc h.symm
      by_cases hm : c ∈ l.map key
      · rw [if_pos hm, if_pos (Or.inr hm), if_neg e1, zero_add]
      · rw [if_neg hm, if_neg (by rintro (h | h); exacts [hc h, hm h]), put, if_neg hc]

theorem puts_zero {ι : Type} (l : List ι) (key : ι → ℕ) (val : ι → ℝ) (c : ℕ) (hn : (l.map key).Nodup) :
    l.foldl (fun b i => put b (key i) (val i)) (fun _ => 0) c = (l.map fun i => if key i = c then val i else 0).sum := by
  rw [puts_eq _ _ _ _ _ hn]
  split_ifs with h
  · rfl
  · symm
    apply List.sum_eq_zero
    intro z hz
    obtain ⟨i, hi, rfl⟩ := List.mem_map.1 hz
    rw [if_neg]
    intro e; exact h (e ▸ List.mem_map_of_mem hi)

theorem sum_list_range (n : ℕ) (f : ℕ → ℝ) : ((List.range n).map f).sum = ∑ i ∈ range n, f i := by
  induction n with
  | zero => simp
  | succ n ih => rw [List.range_succ, List.map_append, List.sum_append, ih, Finset.sum_range_succ]; simp

/-- Two nested loops of stores. -/
theorem loops_eq (n m : ℕ) (key : ℕ → ℕ → ℕ) (val : ℕ → ℕ → ℝ) (c : ℕ)
    (hinj : ∀ a < n, ∀ b < m, ∀ a' < n, ∀ b' < m, key a b = key a' b' → a = a' ∧ b = b') :
    (List.range n).foldl (fun b y => (List.range m).foldl (fun b x => put b (key y x) (val y x)) b) (fun _ => 0) c =
      ∑ y ∈ range n, ∑ x ∈ range m, if key y x = c then val y x else 0 := by
  have e1 : ∀ (b : ℕ → ℝ), (List.range n).foldl (fun b y => (List.range m).foldl (fun b x => put b (key y x) (val y x)) b) b =
      (((List.range n).flatMap fun y => (List.range m).map fun x => (y, x))).foldl (fun b i => put b (key i.1 i.2) (val i.1 i.2)) b := by
    intro b
    rw [List.foldl_flatMap]
    simp only [List.foldl_map]
  rw [e1, puts_zero (key := fun i : ℕ × ℕ => key i.1 i.2) (val := fun i : ℕ × ℕ => val i.1 i.2)]
  · rw [List.map_flatMap]
    simp only [List.flatMap, List.sum_flatten, List.map_map, Function.comp_def, sum_list_range]
  · have hn : (((List.range n).flatMap fun y => (List.range m).map fun x => (y, x))).Nodup := by
      have := List.Nodup.product (List.nodup_range (n := n)) (List.nodup_range (n := m))
      exact this
    refine hn.map_on ?_
    rintro ⟨a, b⟩ h1 ⟨a', b'⟩ h2 he
    simp only [List.mem_flatMap, List.mem_range, List.mem_map, Prod.mk.injEq] at h1 h2
    obtain ⟨_, ha, _, hb, rfl, rfl⟩ := h1
    obtain ⟨_, ha', _, hb', rfl, rfl⟩ := h2
    obtain ⟨r1, r2⟩ := hinj _ ha _ hb _ ha' _ hb' he
    rw [r1, r2]

/-- Cells by row and column. -/
theorem cell_eq {n : ℕ} {a b a' b' : ℕ} (hb : b < n) (hb' : b' < n) : a * n + b = a' * n + b' ↔ a = a' ∧ b = b' := by
  constructor
  · intro h
    have h1 : (a * n + b) / n = (a' * n + b') / n := by rw [h]
    rw [Nat.mul_comm a, Nat.mul_comm a', Nat.mul_add_div (by omega), Nat.mul_add_div (by omega), Nat.div_eq_of_lt hb, Nat.div_eq_of_lt hb'] at h1
    have h2 : a = a' := by simpa using h1
    subst h2; exact ⟨rfl, by omega⟩
  · rintro ⟨rfl, rfl⟩; rfl

theorem dstN_cast {p kc k : ℕ} (h : kc ≤ p) : (dstN p kc k : ℤ) = dst p kc k := by
  unfold dstN dst
  rw [Int.natCast_mod]
  congr 1
  omega

theorem packK_eq {pw ph kw kh : ℕ} (hw : kw ≤ pw) (hh : kh ≤ ph) (ker : ℕ → ℕ → ℝ) {i j : ℕ} (hi : i < pw) :
    packK pw ph kw kh ker (j * pw + i) = packKernel pw ph kw kh ker i j := by
  have hpw : 0 < pw := by omega
  have lt : ∀ k, dstN pw (kw / 2) k < pw := fun k => Nat.mod_lt _ hpw
  unfold packK
  rw [loops_eq]
  · unfold packKernel
    refine sum_congr rfl fun ky hky => sum_congr rfl fun kx hkx => ?_
    have e : (dstN ph (kh / 2) ky * pw + dstN pw (kw / 2) kx = j * pw + i) ↔
        (dst pw (kw / 2) kx = (i : ℤ) ∧ dst ph (kh / 2) ky = (j : ℤ)) := by
      rw [cell_eq (lt _) hi, ← dstN_cast (by omega), ← dstN_cast (by omega), Int.natCast_inj, Int.natCast_inj, and_comm]
    by_cases h : dst pw (kw / 2) kx = (i : ℤ) ∧ dst ph (kh / 2) ky = (j : ℤ)
    · rw [if_pos h, if_pos (e.2 h)]
    · rw [if_neg h, if_neg (fun hh => h (e.1 hh))]
  · intro a ha b hb a' ha' b' hb' he
    rw [cell_eq (lt _) (lt _)] at he
    constructor
    · refine dst_injective ph (kh / 2) kh hh a a' ha ha' ?_
      rw [← dstN_cast (by omega), ← dstN_cast (by omega), he.1]
    · refine dst_injective pw (kw / 2) kw hw b b' hb hb' ?_
      rw [← dstN_cast (by omega), ← dstN_cast (by omega), he.2]

theorem packI_eq {pw w h : ℕ} (hw : w ≤ pw) (img : ℤ → ℤ → ℝ) {i j : ℕ} (hi : i < pw) :
    packI pw w h img (j * pw + i) = zeroExt w h img i j := by
  unfold packI
  rw [loops_eq]
  · unfold zeroExt
    by_cases hin : (0 : ℤ) ≤ i ∧ (i : ℤ) < w ∧ (0 : ℤ) ≤ j ∧ (j : ℤ) < h
    · rw [if_pos hin, sum_eq_single_of_mem j (mem_range.2 (by omega)), sum_eq_single_of_mem i (mem_range.2 (by omega))]
      · rw [if_pos rfl]
      · intro x hx hne
        rw [mem_range] at hx
        rw [if_neg]
        rw [cell_eq (by omega) hi]; omega
      · intro y hy hne
        refine sum_eq_zero fun x hx => ?_
        rw [mem_range] at hx
        rw [if_neg]
        rw [cell_eq (by omega) hi]; omega
    · rw [if_neg hin]
      refine sum_eq_zero fun y hy => sum_eq_zero fun x hx => ?_
      rw [mem_range] at hx hy
      rw [if_neg]
      rw [cell_eq (by omega) hi]; omega
  · intro a ha b hb a' ha' b' hb' he
    exact (cell_eq (by omega) (by omega)).1 he

/-! ### The convolution theorem -/

/-- The root of unity of one axis. -/
def root (n k : ℕ) : ℂ := exp (-(2 * Real.pi * I) * (k / n))

theorem root_pow {n : ℕ} (hn : n ≠ 0) (k : ℕ) : root n k ^ n = 1 := by
  rw [root, ← Complex.exp_nat_mul]
  have : (n : ℂ) * (-(2 * Real.pi * I) * (k / n)) = ((-(k : ℤ) : ℤ) : ℂ) * (2 * Real.pi * I) := by
    have : (n : ℂ) ≠ 0 := by exact_mod_cast hn
    push_cast; field_simp
  rw [this, Complex.exp_int_mul_two_pi_mul_I]

theorem dft2_eq (n0 n1 : ℕ) (x : ℕ → ℝ) (k0 k1 : ℕ) :
    dft2 n0 n1 x k0 k1 = ∑ j0 ∈ range n0, ∑ j1 ∈ range n1, (x (j0 * n1 + j1) : ℂ) * (root n0 k0 ^ j0 * root n1 k1 ^ j1) := by
  unfold dft2
  refine sum_congr rfl fun j0 _ => sum_congr rfl fun j1 _ => ?_
  congr 1
  rw [root, root, ← Complex.exp_nat_mul, ← Complex.exp_nat_mul, ← Complex.exp_add]
  congr 1
  ring

/-- Shifting the summation around the circle. -/
theorem shift_sum {n : ℕ} {z : ℂ} (hz : z ^ n = 1) (g : ℕ → ℂ) {a : ℕ} (ha : a < n) :
    ∑ j ∈ range n, g ((((j : ℤ) - a) % n).toNat) * z ^ j = z ^ a * ∑ b ∈ range n, g b * z ^ b := by
  rw [Finset.mul_sum]
  have hn : (0 : ℤ) < n := by omega
  refine sum_nbij' (fun j => (((j : ℤ) - a) % n).toNat) (fun b => (b + a) % n) ?_ ?_ ?_ ?_ ?_
  · intro j hj
    have h0 := Int.emod_nonneg ((j : ℤ) - a) hn.ne'
    have h1 := Int.emod_lt_of_pos ((j : ℤ) - a) hn
    exact mem_range.2 (by omega)
  · intro b _; exact mem_range.2 (Nat.mod_lt _ (by omega))
  · intro j hj
    rw [mem_range] at hj
    have h0 := Int.emod_nonneg ((j : ℤ) - a) hn.ne'
    apply Int.natCast_inj.1
    rw [Int.natCast_mod]; push_cast
    rw [Int.toNat_of_nonneg h0, Int.emod_add_emod, sub_add_cancel]
    exact Int.emod_eq_of_lt (by omega) (by omega)
  · intro b hb
    rw [mem_range] at hb
    have : (((((b + a) % n : ℕ) : ℤ) - a) % n) = b := by
      push_cast
      rw [Int.emod_sub_emod, add_sub_cancel_right]
      exact Int.emod_eq_of_lt (by omega) (by omega)
    rw [this]; simp
  · intro j hj
    rw [mem_range] at hj
    have h0 := Int.emod_nonneg ((j : ℤ) - a) hn.ne'
    have e : z ^ a * z ^ (((j : ℤ) - a) % n).toNat = z ^ j := by
      rw [← pow_add, pow_eq_pow_mod _ hz, pow_eq_pow_mod j hz]
      congr 1
      apply Int.natCast_inj.1
      rw [Int.natCast_mod, Int.natCast_mod]; push_cast
      rw [Int.toNat_of_nonneg h0, Int.add_emod_emod]
      congr 1; ring
    rw [← e]; ring

/-- The circular convolution of two buffers. -/
def circular (n0 n1 : ℕ) (A B : ℕ → ℝ) (c : ℕ) : ℝ :=
  ∑ a0 ∈ range n0, ∑ a1 ∈ range n1, A (a0 * n1 + a1) *
    B ((((c / n1 : ℕ) - (a0 : ℤ)) % n0).toNat * n1 + (((c % n1 : ℕ) - (a1 : ℤ)) % n1).toNat)

theorem dft2_circular {n0 n1 : ℕ} (h0 : n0 ≠ 0) (h1 : n1 ≠ 0) (A B : ℕ → ℝ) (k0 k1 : ℕ) :
    dft2 n0 n1 (circular n0 n1 A B) k0 k1 = dft2 n0 n1 A k0 k1 * dft2 n0 n1 B k0 k1 := by
  rw [dft2_eq, dft2_eq, dft2_eq]
  set z0 := root n0 k0
  set z1 := root n1 k1
  have hz0 : z0 ^ n0 = 1 := root_pow h0 k0
  have hz1 : z1 ^ n1 = 1 := root_pow h1 k1
  have e1 : ∀ j0 ∈ range n0, ∀ j1 ∈ range n1, ((circular n0 n1 A B (j0 * n1 + j1) : ℝ) : ℂ) * (z0 ^ j0 * z1 ^ j1) =
      ∑ a0 ∈ range n0, ∑ a1 ∈ range n1, (A (a0 * n1 + a1) : ℂ) *
        ((B ((((j0 : ℤ) - a0) % n0).toNat * n1 + (((j1 : ℤ) - a1) % n1).toNat) : ℂ) * (z0 ^ j0 * z1 ^ j1)) := by
    intro j0 _ j1 hj1
    rw [mem_range] at hj1
    have d1 : (j0 * n1 + j1) / n1 = j0 := by
      rw [Nat.mul_comm, Nat.mul_add_div (by omega), Nat.div_eq_of_lt hj1, add_zero]
    have d2 : (j0 * n1 + j1) % n1 = j1 := by
      rw [Nat.mul_comm, Nat.mul_add_mod, Nat.mod_eq_of_lt hj1]
    simp only [circular, d1, d2]
    push_cast
    rw [Finset.sum_mul]
    refine sum_congr rfl fun a0 _ => ?_
    rw [Finset.sum_mul]
    refine sum_congr rfl fun a1 _ => ?_
    ring
  rw [sum_congr rfl fun j0 hj0 => sum_congr rfl fun j1 hj1 => e1 j0 hj0 j1 hj1]
  rw [Finset.sum_mul]
  have e2 : ∑ j0 ∈ range n0, ∑ j1 ∈ range n1, ∑ a0 ∈ range n0, ∑ a1 ∈ range n1, (A (a0 * n1 + a1) : ℂ) *
        ((B ((((j0 : ℤ) - a0) % n0).toNat * n1 + (((j1 : ℤ) - a1) % n1).toNat) : ℂ) * (z0 ^ j0 * z1 ^ j1)) =
      ∑ a0 ∈ range n0, ∑ a1 ∈ range n1, ∑ j0 ∈ range n0, ∑ j1 ∈ range n1, (A (a0 * n1 + a1) : ℂ) *
        ((B ((((j0 : ℤ) - a0) % n0).toNat * n1 + (((j1 : ℤ) - a1) % n1).toNat) : ℂ) * (z0 ^ j0 * z1 ^ j1)) := by
    rw [sum_congr rfl fun j0 _ => sum_comm (s := range n1), sum_comm]
    refine sum_congr rfl fun a0 _ => ?_
    rw [sum_congr rfl fun j0 _ => sum_comm (s := range n1), sum_comm]
  rw [e2]
  refine sum_congr rfl fun a0 ha0 => ?_
  rw [Finset.sum_mul]
  refine sum_congr rfl fun a1 ha1 => ?_
  rw [mem_range] at ha0 ha1
  have e3 : ∀ j0 : ℕ, ∑ j1 ∈ range n1, (A (a0 * n1 + a1) : ℂ) *
        ((B ((((j0 : ℤ) - a0) % n0).toNat * n1 + (((j1 : ℤ) - a1) % n1).toNat) : ℂ) * (z0 ^ j0 * z1 ^ j1)) =
      (A (a0 * n1 + a1) : ℂ) * z1 ^ a1 * ((fun b0 : ℕ => ∑ b1 ∈ range n1, (B (b0 * n1 + b1) : ℂ) * z1 ^ b1) (((j0 : ℤ) - a0) % n0).toNat * z0 ^ j0) := by
    intro j0
    have := shift_sum hz1 (fun b => (B ((((j0 : ℤ) - a0) % n0).toNat * n1 + b) : ℂ)) ha1
    simp only at this ⊢
    calc _ = (A (a0 * n1 + a1) : ℂ) * z0 ^ j0 * ∑ j1 ∈ range n1, (B ((((j0 : ℤ) - a0) % n0).toNat * n1 + (((j1 : ℤ) - a1) % n1).toNat) : ℂ) * z1 ^ j1 := by
          rw [Finset.mul_sum]; refine sum_congr rfl fun j1 _ => ?_; ring
      _ = _ := by rw [this]; ring
  rw [sum_congr rfl fun j0 _ => e3 j0, ← Finset.mul_sum, shift_sum hz0 (fun b0 => ∑ b1 ∈ range n1, (B (b0 * n1 + b1) : ℂ) * z1 ^ b1) ha0]
  have e4 : ∑ b ∈ range n0, (∑ b1 ∈ range n1, (B (b * n1 + b1) : ℂ) * z1 ^ b1) * z0 ^ b =
      ∑ j0 ∈ range n0, ∑ j1 ∈ range n1, (B (j0 * n1 + j1) : ℂ) * (z0 ^ j0 * z1 ^ j1) := by
    refine sum_congr rfl fun b _ => ?_
    rw [Finset.sum_mul]
    refine sum_congr rfl fun b1 _ => ?_
    ring
  rw [e4]; ring

/-- **C19.**  With FFTW as documented, the transforms compute the linear convolution of the image, extended by zeros, with the
kernel centred at its middle: every image, every kernel, every pixel. -/
theorem C19_fftw (w h kw kh : ℕ) (c2r : (ℕ → ℂ) → ℕ → ℝ) (hc : IsC2R (h + kh - 1) (w + kw - 1) c2r) (hkw : 0 < kw) (hkh : 0 < kh)
    (img : ℤ → ℤ → ℝ) (ker : ℕ → ℕ → ℝ) (x y : ℕ) (hx : x < w) (hy : y < h) :
    convolveFft c2r w h img kw kh ker x y = convolution w h img kw kh ker x y := by
  rw [← C19_fft_is_convolution w h img kw kh ker x y ⟨by omega, by omega, by omega, by omega⟩]
  set pw := w + kw - 1 with hpw
  set ph := h + kh - 1 with hph
  have p0 : pw ≠ 0 := by omega
  have q0 : ph ≠ 0 := by omega
  have hcell : y * pw + x < ph * pw := by
    have : y + 1 ≤ ph := by omega
    have := Nat.mul_le_mul_right pw this
    rw [Nat.add_mul] at this; omega
  have hinv := hc (fun i => mulC (r2c ph pw (packI pw w h img) i) (r2c ph pw (packK pw ph kw kh ker) i))
    (circular ph pw (packI pw w h img) (packK pw ph kw kh ker))
    (fun c _ => by rw [mulC_eq, r2c, r2c, r2c, dft2_circular q0 p0]) (y * pw + x) hcell
  have hne : ((ph * pw : ℕ) : ℝ) ≠ 0 := by exact_mod_cast Nat.mul_ne_zero q0 p0
  have e1 : convolveFft c2r w h img kw kh ker x y = circular ph pw (packI pw w h img) (packK pw ph kw kh ker) (y * pw + x) := by
    simp only [convolveFft, ← hpw, ← hph]
    rw [hinv, Nat.mul_comm pw ph]
    field_simp
  rw [e1]
  have d1 : (y * pw + x) / pw = y := by
    rw [Nat.mul_comm, Nat.mul_add_div (by omega), Nat.div_eq_of_lt (by omega), add_zero]
  have d2 : (y * pw + x) % pw = x := by
    rw [Nat.mul_comm, Nat.mul_add_mod, Nat.mod_eq_of_lt (by omega)]
  simp only [circular, fft, d1, d2, ← hpw, ← hph]
  refine sum_congr rfl fun j hj => sum_congr rfl fun i hi => ?_
  rw [mem_range] at hi hj
  have b0 := Int.emod_nonneg ((x : ℤ) - i) (show (pw : ℤ) ≠ 0 by omega)
  have b1 := Int.emod_lt_of_pos ((x : ℤ) - i) (show (0 : ℤ) < pw by omega)
  have c0 := Int.emod_nonneg ((y : ℤ) - j) (show (ph : ℤ) ≠ 0 by omega)
  rw [packI_eq (by omega) _ hi, packK_eq (by omega) (by omega) _ (by omega)]
  congr 1
  rw [Int.toNat_of_nonneg b0, Int.toNat_of_nonneg c0]

/-! ### The contract can be met -/

/-- The whole spectrum from its half: the spectrum of a real array is Hermitian. -/
def extend (n0 n1 : ℕ) (F : ℕ → ℂ) (k0 k1 : ℕ) : ℂ :=
  if k1 ≤ n1 / 2 then F (k0 * (n1 / 2 + 1) + k1) else (starRingEnd ℂ) (F ((n0 - k0) % n0 * (n1 / 2 + 1) + (n1 - k1)))

/-- The inverse transform by its formula. -/
def inverse2 (n0 n1 : ℕ) (F : ℕ → ℂ) (j : ℕ) : ℝ :=
  (∑ k0 ∈ range n0, ∑ k1 ∈ range n1, extend n0 n1 F k0 k1 * exp (2 * Real.pi * I * (k0 * (j / n1 : ℕ) / n0 + k1 * (j % n1 : ℕ) / n1))).re

theorem conj_root (n k : ℕ) : (starRingEnd ℂ) (root n k) = exp (2 * Real.pi * I * (k / n)) := by
  rw [root, ← Complex.exp_conj]
  congr 1
  have h2 : (starRingEnd ℂ) 2 = 2 := by
    have := Complex.conj_ofReal 2
    push_cast at this; exact this
  simp [h2]

theorem root_mul_conj (n k : ℕ) : root n k * (starRingEnd ℂ) (root n k) = 1 := by
  rw [conj_root, root, ← Complex.exp_add]
  simp

theorem root_swap (n j k : ℕ) : root n k ^ j = root n j ^ k := by
  rw [root, root, ← Complex.exp_nat_mul, ← Complex.exp_nat_mul]; congr 1; ring

theorem root_opposite {n k k' m : ℕ} (hn : n ≠ 0) (h : k + k' = m * n) : (starRingEnd ℂ) (root n k') = root n k := by
  have h1 : root n k * root n k' = 1 := by
    rw [root, root, ← Complex.exp_add]
    have : -(2 * Real.pi * I) * ((k : ℂ) / n) + -(2 * Real.pi * I) * ((k' : ℂ) / n) = ((-(m : ℤ) : ℤ) : ℂ) * (2 * Real.pi * I) := by
      have hn' : (n : ℂ) ≠ 0 := by exact_mod_cast hn
      have h' : (k : ℂ) + k' = m * n := by exact_mod_cast h
      have : -(2 * Real.pi * I) * ((k : ℂ) / n) + -(2 * Real.pi * I) * ((k' : ℂ) / n) = -(2 * Real.pi * I) * (((k : ℂ) + k') / n) := by ring
      rw [this, h']; push_cast; field_simp
    rw [this, Complex.exp_int_mul_two_pi_mul_I]
  have h2 := root_mul_conj n k'
  have h3 : root n k' ≠ 0 := Complex.exp_ne_zero _
  exact mul_left_cancel₀ h3 (by rw [h2, mul_comm, h1])

theorem orthogonal {n j a : ℕ} (hj : j < n) (ha : a < n) :
    ∑ k ∈ range n, root n k ^ j * (starRingEnd ℂ) (root n k) ^ a = if j = a then (n : ℂ) else 0 := by
  have hn : n ≠ 0 := by omega
  have e : ∀ k, root n k ^ j * (starRingEnd ℂ) (root n k) ^ a = (root n j * (starRingEnd ℂ) (root n a)) ^ k := by
    intro k
    rw [mul_pow, ← map_pow, ← map_pow, root_swap n j k, root_swap n a k]
  simp only [e]
  set q := root n j * (starRingEnd ℂ) (root n a) with hq
  have hqn : q ^ n = 1 := by rw [hq, mul_pow, root_pow hn, ← map_pow, root_pow hn]; simp
  split_ifs with hja
  · subst hja
    rw [hq, root_mul_conj]; simp
  · have hq1 : q ≠ 1 := by
      intro h
      rw [hq, conj_root, root, ← Complex.exp_add, Complex.exp_eq_one_iff] at h
      obtain ⟨m, hm⟩ := h
      have hn' : (n : ℂ) ≠ 0 := by exact_mod_cast hn
      have hpi : (2 * Real.pi * I : ℂ) ≠ 0 := by simp [Real.pi_ne_zero]
      have h2 : ((a : ℂ) - j) / n = m := by
        apply mul_right_cancel₀ hpi
        rw [← hm]; ring
      rw [div_eq_iff hn'] at h2
      have h3 : (a : ℤ) - j = m * n := by exact_mod_cast h2
      have h4 : m = 0 := by
        by_contra hne
        rcases lt_or_gt_of_ne hne with hlt | hgt
        · have : m * n ≤ (-1) * n := Int.mul_le_mul_of_nonneg_right (by omega) (by omega)
          omega
        · have : 1 * (n : ℤ) ≤ m * n := Int.mul_le_mul_of_nonneg_right (by omega) (by omega)
          omega
      rw [h4] at h3; omega
    have := mul_geom_sum q n
    rw [hqn, sub_self] at this
    exact (mul_eq_zero.1 this).resolve_left (sub_ne_zero.2 hq1)

theorem extend_eq {n0 n1 : ℕ} {F : ℕ → ℂ} {x : ℕ → ℝ} (hF : ∀ c < n0 * (n1 / 2 + 1), F c = r2c n0 n1 x c) {k0 k1 : ℕ}
    (h0 : k0 < n0) (h1 : k1 < n1) : extend n0 n1 F k0 k1 = dft2 n0 n1 x k0 k1 := by
  have at' : ∀ a b, a < n0 → b ≤ n1 / 2 → F (a * (n1 / 2 + 1) + b) = dft2 n0 n1 x a b := by
    intro a b ha hb
    have hlt : a * (n1 / 2 + 1) + b < n0 * (n1 / 2 + 1) := by
      have := Nat.mul_le_mul_right (n1 / 2 + 1) (show a + 1 ≤ n0 from ha)
      rw [Nat.add_mul a 1] at this; omega
    rw [hF _ hlt, r2c]
    congr 1
    · rw [Nat.mul_comm, Nat.mul_add_div (by omega), Nat.div_eq_of_lt (by omega), add_zero]
    · rw [Nat.mul_comm, Nat.mul_add_mod, Nat.mod_eq_of_lt (by omega)]
  unfold extend
  split_ifs with h
  · exact at' k0 k1 h0 h
  · have hn1 : n1 ≠ 0 := by omega
    rw [at' _ _ (Nat.mod_lt _ (by omega)) (by omega), dft2_eq, dft2_eq, map_sum]
    refine sum_congr rfl fun j0 _ => ?_
    rw [map_sum]
    refine sum_congr rfl fun j1 _ => ?_
    have r0 : (starRingEnd ℂ) (root n0 ((n0 - k0) % n0)) = root n0 k0 := by
      rcases Nat.eq_zero_or_pos k0 with rfl | hk
      · refine root_opposite (m := 0) (by omega) ?_
        simp
      · refine root_opposite (m := 1) (by omega) ?_
        rw [Nat.mod_eq_of_lt (by omega)]; omega
    have r1 : (starRingEnd ℂ) (root n1 (n1 - k1)) = root n1 k1 := root_opposite (m := 1) (by omega) (by omega)
    rw [map_mul, map_mul, map_pow, map_pow, r0, r1, Complex.conj_ofReal]

/-- The formula is an inverse: the contract of FFTW is consistent. -/
theorem inverse2_isC2R (n0 n1 : ℕ) : IsC2R n0 n1 (inverse2 n0 n1) := by
  intro F x hF j hj
  have hn1 : n1 ≠ 0 := by rintro rfl; simp at hj
  have ha1 : j % n1 < n1 := Nat.mod_lt _ (by omega)
  have ha0 : j / n1 < n0 := Nat.div_lt_of_lt_mul (by rw [Nat.mul_comm]; exact hj)
  set a0 := j / n1 with hda
  set a1 := j % n1 with hma
  have hjj : a0 * n1 + a1 = j := by rw [hda, hma, Nat.mul_comm]; exact Nat.div_add_mod j n1
  have key : ∑ k0 ∈ range n0, ∑ k1 ∈ range n1, extend n0 n1 F k0 k1 *
      exp (2 * Real.pi * I * (k0 * (a0 : ℕ) / n0 + k1 * (a1 : ℕ) / n1)) = (((n0 * n1 : ℕ) * x j : ℝ) : ℂ) := by
    have e1 : ∀ k0 ∈ range n0, ∀ k1 ∈ range n1, extend n0 n1 F k0 k1 *
        exp (2 * Real.pi * I * (k0 * (a0 : ℕ) / n0 + k1 * (a1 : ℕ) / n1)) =
        ∑ j0 ∈ range n0, ∑ j1 ∈ range n1, (x (j0 * n1 + j1) : ℂ) *
          ((root n0 k0 ^ j0 * (starRingEnd ℂ) (root n0 k0) ^ a0) * (root n1 k1 ^ j1 * (starRingEnd ℂ) (root n1 k1) ^ a1)) := by
      intro k0 h0 k1 h1
      rw [mem_range] at h0 h1
      have ee : exp (2 * Real.pi * I * (k0 * (a0 : ℕ) / n0 + k1 * (a1 : ℕ) / n1)) =
          (starRingEnd ℂ) (root n0 k0) ^ a0 * (starRingEnd ℂ) (root n1 k1) ^ a1 := by
        rw [conj_root, conj_root, ← Complex.exp_nat_mul, ← Complex.exp_nat_mul, ← Complex.exp_add]; congr 1; ring
      rw [extend_eq hF h0 h1, ee, dft2_eq, Finset.sum_mul]
      refine sum_congr rfl fun j0 _ => ?_
      rw [Finset.sum_mul]
      refine sum_congr rfl fun j1 _ => ?_
      ring
    rw [sum_congr rfl fun k0 h0 => sum_congr rfl fun k1 h1 => e1 k0 h0 k1 h1]
    rw [sum_congr rfl fun k0 _ => sum_comm (s := range n1), sum_comm]
    rw [sum_congr rfl fun j0 _ => sum_congr rfl fun k0 _ => sum_comm (s := range n1)]
    rw [sum_congr rfl fun j0 _ => sum_comm (s := range n0) (t := range n1)]
    have e2 : ∀ j0 ∈ range n0, ∀ j1 ∈ range n1, ∑ k0 ∈ range n0, ∑ k1 ∈ range n1, (x (j0 * n1 + j1) : ℂ) *
          ((root n0 k0 ^ j0 * (starRingEnd ℂ) (root n0 k0) ^ a0) * (root n1 k1 ^ j1 * (starRingEnd ℂ) (root n1 k1) ^ a1)) =
        (x (j0 * n1 + j1) : ℂ) * ((if j0 = a0 then (n0 : ℂ) else 0) * (if j1 = a1 then (n1 : ℂ) else 0)) := by
      intro j0 h0 j1 h1
      rw [mem_range] at h0 h1
      rw [← orthogonal h0 ha0, ← orthogonal h1 ha1, Finset.sum_mul_sum, Finset.mul_sum]
      refine sum_congr rfl fun k0 _ => ?_
      rw [Finset.mul_sum]
    rw [sum_congr rfl fun j0 h0 => sum_congr rfl fun j1 h1 => e2 j0 h0 j1 h1]
    rw [sum_eq_single_of_mem a0 (mem_range.2 ha0), sum_eq_single_of_mem a1 (mem_range.2 ha1)]
    · rw [if_pos rfl, if_pos rfl, hjj]; push_cast; ring
    · intro j1 _ hne; rw [if_neg hne]; ring
    · intro j0 _ hne; refine sum_eq_zero fun j1 _ => ?_; rw [if_neg hne]; ring
  unfold inverse2
  rw [← hda, ← hma, key, Complex.ofReal_re]

/-- A seven by seven kernel on an image of five by four. -/
example (img : ℤ → ℤ → ℝ) (ker : ℕ → ℕ → ℝ) :
    convolveFft (inverse2 10 11) 5 4 img 7 7 ker 4 3 = convolution 5 4 img 7 7 ker (4 : ℕ) (3 : ℕ) :=
  C19_fftw 5 4 7 7 _ (inverse2_isC2R 10 11) (by norm_num) (by norm_num) img ker 4 3 (by norm_num) (by norm_num)

end
end Huira.Image
