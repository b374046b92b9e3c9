import Verif.Core.RotationRounding

set_option linter.unusedSimpArgs false
/-!
# Rotations computed with rounding

`huira::Rotation<float>` and `Rotation<double>` as they are computed: every sum, product, quotient and square root of
`set_matrix_`, `orthonormalize_`, `operator*` and `glm` is followed by a rounding `fl`. Nothing is assumed of `fl` but that
numbers up to 16 are moved by at most `u (|x| + 1)`: IEEE single precision meets this with `u = 2⁻²⁴`, double precision
with `u = 2⁻⁵³`, underflow included. The formulas are those of glm 1.0 (not part of /repo), evaluated from left to right;
contraction to fused multiply-adds is not modelled.
-/
namespace Huira.RotFl

open V3 Huira.Rot

/-! ## The arithmetic -/

/-- A rounding of unit `u`. -/
def IsRounding (u : ℝ) (fl : ℝ → ℝ) : Prop := ∀ x : ℝ, |x| ≤ 16 → |fl x - x| ≤ u * (|x| + 1)

/-! ## The code, with rounding -/

/-- `glm::dot`: `tmp.x + tmp.y + tmp.z` of the products -/
def flDot (fl : ℝ → ℝ) (a b : V3) : ℝ := fl (fl (fl (a.x * b.x) + fl (a.y * b.y)) + fl (a.z * b.z))

/-- `glm::cross` -/
def flCross (fl : ℝ → ℝ) (a b : V3) : V3 :=
  ⟨fl (fl (a.y * b.z) - fl (a.z * b.y)), fl (fl (a.z * b.x) - fl (a.x * b.z)), fl (fl (a.x * b.y) - fl (a.y * b.x))⟩

/-- `glm::normalize`: `v * inversesqrt(dot(v, v))`, `inversesqrt(x) = 1 / sqrt(x)` -/
noncomputable def flNormalize (fl : ℝ → ℝ) (v : V3) : V3 :=
  let r := fl (1 / fl (Real.sqrt (flDot fl v v)))
  ⟨fl (v.x * r), fl (v.y * r), fl (v.z * r)⟩

/-- `glm::determinant` -/
def flDet (fl : ℝ → ℝ) (m : M3) : ℝ :=
  fl (fl (fl (m.c0.x * fl (fl (m.c1.y * m.c2.z) - fl (m.c2.y * m.c1.z))) -
      fl (m.c1.x * fl (fl (m.c0.y * m.c2.z) - fl (m.c2.y * m.c0.z)))) +
    fl (m.c2.x * fl (fl (m.c0.y * m.c1.z) - fl (m.c1.y * m.c0.z))))

/-- matrix times vector (rotation.ipp 404-408) -/
def flMulVec (fl : ℝ → ℝ) (m : M3) (v : V3) : V3 :=
  ⟨fl (fl (fl (m.c0.x * v.x) + fl (m.c1.x * v.y)) + fl (m.c2.x * v.z)),
    fl (fl (fl (m.c0.y * v.x) + fl (m.c1.y * v.y)) + fl (m.c2.y * v.z)),
    fl (fl (fl (m.c0.z * v.x) + fl (m.c1.z * v.y)) + fl (m.c2.z * v.z))⟩

/-- `glm` matrix product -/
def flMul (fl : ℝ → ℝ) (a b : M3) : M3 := ⟨flMulVec fl a b.c0, flMulVec fl a b.c1, flMulVec fl a b.c2⟩

/-- `orthonormalize_` (rotation.ipp 547-568) -/
noncomputable def flOrthonormalize (fl : ℝ → ℝ) (m : M3) : M3 :=
  let x := flNormalize fl m.c0
  let t := flDot fl m.c1 x
  let w : V3 := ⟨fl (m.c1.x - fl (t * x.x)), fl (m.c1.y - fl (t * x.y)), fl (m.c1.z - fl (t * x.z))⟩
  let y := flNormalize fl w
  ⟨x, y, flCross fl x y⟩

/-- `set_matrix_` (rotation.ipp 529-540): `none` when it throws. `loose_epsilon` is `10⁻³` rounded; the difference
`det - 1.0`, computed in double precision, is taken as exact. -/
noncomputable def flSetMatrix (fl : ℝ → ℝ) (m : M3) : Option M3 :=
  if |flDet fl m - 1| > fl 1e-3 then none else some (flOrthonormalize fl m)

/-- `Mat3<U> cast_matrix = this->matrix_` (rotation.ipp 260): every entry rounded to the other type -/
def flCast (fl : ℝ → ℝ) (m : M3) : M3 :=
  ⟨⟨fl m.c0.x, fl m.c0.y, fl m.c0.z⟩, ⟨fl m.c1.x, fl m.c1.y, fl m.c1.z⟩, ⟨fl m.c2.x, fl m.c2.y, fl m.c2.z⟩⟩

/-- A history of calls that makes one rotation; every call says with which rounding (type `T`) it computes, and a matrix
handed in says which rotation it stands for. -/
inductive Calls
  /-- `Rotation{}` -/
  | identity
  /-- `from_local_to_parent(m)`, `from_basis_vectors` (rotation.ipp 20-27, 237-249); `m` stands for the rotation `x` -/
  | matrix (fl : ℝ → ℝ) (m x : M3)
  /-- `inverse()` (rotation.ipp 277-283) -/
  | inverse (fl : ℝ → ℝ) (e : Calls)
  /-- `a * b`, `a *= b` (rotation.ipp 381-386, 394-398; `Rotation(Mat3)`, rotation.hpp 83, calls `set_matrix_`) -/
  | compose (fl : ℝ → ℝ) (a b : Calls)
  /-- `static_cast<Rotation<U>>` (rotation.ipp 256-262) -/
  | cast (fl : ℝ → ℝ) (e : Calls)

/-- what the calls return; `none` when one throws -/
noncomputable def Calls.run : Calls → Option M3
  | .identity => some M3.one
  | .matrix fl m _ => flSetMatrix fl m
  | .inverse fl e => e.run.bind fun m => flSetMatrix fl m.transpose
  | .compose fl a b => a.run.bind fun ma => b.run.bind fun mb => flSetMatrix fl (flMul fl ma mb)
  | .cast fl e => e.run.bind fun m => flSetMatrix fl (flCast fl m)

/-! ## What they should return -/

/-- the rotation the calls stand for, without rounding -/
noncomputable def Calls.exact : Calls → M3
  | .identity => M3.one
  | .matrix _ _ x => x
  | .inverse _ e => e.exact.transpose
  | .compose _ a b => a.exact.mul b.exact
  | .cast _ e => e.exact

/-- the number of calls -/
def Calls.count : Calls → ℕ
  | .identity => 0
  | .matrix _ _ _ => 1
  | .inverse _ e => e.count + 1
  | .compose _ a b => a.count + b.count + 1
  | .cast _ e => e.count + 1

/-- All arithmetic is of unit `u`, and every matrix handed in is within `200 u` of the rotation it stands for. -/
def Calls.Ok (u : ℝ) : Calls → Prop
  | .identity => True
  | .matrix fl m x => IsRounding u fl ∧ IsRotation x ∧ Near (200 * u) m x
  | .inverse fl e => IsRounding u fl ∧ e.Ok u
  | .compose fl a b => IsRounding u fl ∧ a.Ok u ∧ b.Ok u
  | .cast fl e => IsRounding u fl ∧ e.Ok u

/-! ## One rounding at a time -/

section steps
variable {u : ℝ} {fl : ℝ → ℝ}

theorem step (hr : IsRounding u fl) (hu : 0 ≤ u) {x y α M : ℝ} (h : |x - y| ≤ α) (hy : |y| ≤ M) (hb : M + α ≤ 16) :
    |fl x - y| ≤ α + u * (M + α + 1) := by
  have hx : |x| ≤ M + α := by
    have := abs_add_le y (x - y); rw [add_sub_cancel] at this; linarith
  have h1 := hr x (by linarith)
  have h2 := abs_add_le (fl x - x) (x - y)
  have e : fl x - x + (x - y) = fl x - y := by ring
  rw [e] at h2
  have := mul_le_mul_of_nonneg_left (a := u) (show |x| + 1 ≤ M + α + 1 by linarith) hu
  linarith

theorem prod {a b a' b' A B α β : ℝ} (ha : |a| ≤ A) (hb : |b'| ≤ B) (h1 : |a' - a| ≤ α) (h2 : |b' - b| ≤ β) :
    |a' * b' - a * b| ≤ α * B + A * β := by
  have e : a' * b' - a * b = (a' - a) * b' + a * (b' - b) := by ring
  rw [e]
  refine (abs_add_le _ _).trans ?_
  rw [abs_mul, abs_mul]
  exact add_le_add (mul_le_mul h1 hb (abs_nonneg _) ((abs_nonneg _).trans h1))
    (mul_le_mul ha h2 (abs_nonneg _) ((abs_nonneg _).trans ha))

theorem absmul {a b A B : ℝ} (ha : |a| ≤ A) (hb : |b| ≤ B) : |a * b| ≤ A * B := by
  rw [abs_mul]; exact mul_le_mul ha hb (abs_nonneg _) ((abs_nonneg _).trans ha)

theorem plus {a b a' b' α β : ℝ} (h1 : |a' - a| ≤ α) (h2 : |b' - b| ≤ β) : |(a' + b') - (a + b)| ≤ α + β := by
  rw [abs_le] at *; constructor <;> linarith [h1.1, h1.2, h2.1, h2.2]

theorem minus {a b a' b' α β : ℝ} (h1 : |a' - a| ≤ α) (h2 : |b' - b| ≤ β) : |(a' - b') - (a - b)| ≤ α + β := by
  rw [abs_le] at *; constructor <;> linarith [h1.1, h1.2, h2.1, h2.2]

theorem absadd {a b A B : ℝ} (ha : |a| ≤ A) (hb : |b| ≤ B) : |a + b| ≤ A + B := (abs_add_le _ _).trans (add_le_add ha hb)
theorem abssub {a b A B : ℝ} (ha : |a| ≤ A) (hb : |b| ≤ B) : |a - b| ≤ A + B := by
  have := abs_add_le a (-b); rw [abs_neg, ← sub_eq_add_neg] at this; linarith

theorem self0 (a : ℝ) : |a - a| ≤ 0 := by simp

/-- a rounded product of exact numbers -/
theorem mul1 (hr : IsRounding u fl) (hu : 0 ≤ u) {a b : ℝ} (ha : |a| ≤ 1.1) (hb : |b| ≤ 1.1) :
    |fl (a * b) - a * b| ≤ 2.21 * u := by
  have := step hr hu (self0 (a * b)) (absmul ha hb) (by norm_num)
  linarith

/-- a rounded sum of three rounded products -/
theorem sum3 (hr : IsRounding u fl) (hu : 0 ≤ u) (hu1 : u ≤ 1e-7) {a b c a' b' c' : ℝ} (ha : |a| ≤ 1.1) (hb : |b| ≤ 1.1)
    (hc : |c| ≤ 1.1) (ha' : |a'| ≤ 1.1) (hb' : |b'| ≤ 1.1) (hc' : |c'| ≤ 1.1) :
    |fl (fl (fl (a * a') + fl (b * b')) + fl (c * c')) - (a * a' + b * b' + c * c')| ≤ 15 * u := by
  have huu : u * u ≤ 1e-7 * u := mul_le_mul_of_nonneg_right hu1 hu
  have h1 := mul1 hr hu ha ha'
  have h2 := mul1 hr hu hb hb'
  have h3 := mul1 hr hu hc hc'
  have h4 := step hr hu (plus h1 h2) (absadd (absmul ha ha') (absmul hb hb')) (by linarith)
  have h4' : |fl (fl (a * a') + fl (b * b')) - (a * a' + b * b')| ≤ 7.9 * u := h4.trans (by linarith)
  have h5 := step hr hu (plus h4' h3) (absadd (absadd (absmul ha ha') (absmul hb hb')) (absmul hc hc'))
    (by linarith)
  linarith

/-- a rounded difference of two rounded products -/
theorem diff2 (hr : IsRounding u fl) (hu : 0 ≤ u) (hu1 : u ≤ 1e-7) {a b a' b' : ℝ} (ha : |a| ≤ 1.1) (hb : |b| ≤ 1.1)
    (ha' : |a'| ≤ 1.1) (hb' : |b'| ≤ 1.1) : |fl (fl (a * a') - fl (b * b')) - (a * a' - b * b')| ≤ 7.9 * u := by
  have huu : u * u ≤ 1e-7 * u := mul_le_mul_of_nonneg_right hu1 hu
  have h4 := step hr hu (minus (mul1 hr hu ha ha') (mul1 hr hu hb hb')) (abssub (absmul ha ha') (absmul hb hb'))
    (by linarith)
  linarith

/-- components at most `11/10` -/
def Small (v : V3) : Prop := |v.x| ≤ 1.1 ∧ |v.y| ≤ 1.1 ∧ |v.z| ≤ 1.1

theorem small_of_len {v : V3} (h : len v ≤ 1.1) : Small v :=
  ⟨(comp_le v).1.trans h, (comp_le v).2.1.trans h, (comp_le v).2.2.trans h⟩

theorem flDot_near (hr : IsRounding u fl) (hu : 0 ≤ u) (hu1 : u ≤ 1e-7) {a b : V3} (ha : Small a) (hb : Small b) :
    |flDot fl a b - dot a b| ≤ 15 * u :=
  sum3 hr hu hu1 ha.1 ha.2.1 ha.2.2 hb.1 hb.2.1 hb.2.2

theorem flCross_near (hr : IsRounding u fl) (hu : 0 ≤ u) (hu1 : u ≤ 1e-7) {a b : V3} (ha : Small a) (hb : Small b) :
    len (flCross fl a b - cross a b) ≤ 14 * u := by
  obtain ⟨a1, a2, a3⟩ := ha
  obtain ⟨b1, b2, b3⟩ := hb
  have := len_of_comp (a := flCross fl a b - cross a b) (e := 7.9 * u) (diff2 hr hu hu1 a2 a3 b3 b2)
    (diff2 hr hu hu1 a3 a1 b1 b3) (diff2 hr hu hu1 a1 a2 b2 b1)
  linarith

theorem flMulVec_near (hr : IsRounding u fl) (hu : 0 ≤ u) (hu1 : u ≤ 1e-7) {m : M3} {v : V3} (h0 : Small m.c0)
    (h1 : Small m.c1) (h2 : Small m.c2) (hv : Small v) : len (flMulVec fl m v - m.mulVec v) ≤ 26.25 * u := by
  obtain ⟨v1, v2, v3⟩ := hv
  have e : ∀ a b c d f g : ℝ, a * b + c * d + f * g = b * a + d * c + g * f := by intros; ring
  have k := len_of_comp (a := flMulVec fl m v - m.mulVec v) (e := 15 * u)
    (by have := sum3 hr hu hu1 h0.1 h1.1 h2.1 v1 v2 v3; rw [e] at this; exact this)
    (by have := sum3 hr hu hu1 h0.2.1 h1.2.1 h2.2.1 v1 v2 v3; rw [e] at this; exact this)
    (by have := sum3 hr hu hu1 h0.2.2 h1.2.2 h2.2.2 v1 v2 v3; rw [e] at this; exact this)
  linarith

theorem flDet_near (hr : IsRounding u fl) (hu : 0 ≤ u) (hu1 : u ≤ 1e-7) {m : M3} (h0 : Small m.c0)
    (h1 : Small m.c1) (h2 : Small m.c2) : |flDet fl m - m.det| ≤ 60 * u := by
  have huu : u * u ≤ 1e-7 * u := mul_le_mul_of_nonneg_right hu1 hu
  obtain ⟨a1, a2, a3⟩ := h0
  obtain ⟨b1, b2, b3⟩ := h1
  obtain ⟨c1, c2, c3⟩ := h2
  have term : ∀ k p q p' q' : ℝ, |k| ≤ 1.1 → |p| ≤ 1.1 → |q| ≤ 1.1 → |p'| ≤ 1.1 → |q'| ≤ 1.1 →
      |fl (k * fl (fl (p * p') - fl (q * q'))) - k * (p * p' - q * q')| ≤ 13 * u ∧ |k * (p * p' - q * q')| ≤ 2.7 := by
    intro k p q p' q' hk hp hq hp' hq'
    have d := diff2 hr hu hu1 hp hq hp' hq'
    have db := abssub (absmul hp hp') (absmul hq hq')
    have db' : |fl (fl (p * p') - fl (q * q'))| ≤ 2.5 := by
      have := abs_add_le (p * p' - q * q') (fl (fl (p * p') - fl (q * q')) - (p * p' - q * q'))
      rw [add_sub_cancel] at this
      linarith
    have pr := prod hk db' (self0 k) d
    have mb := absmul hk db
    have := step hr hu pr mb (by linarith)
    exact ⟨by linarith, mb.trans (by norm_num)⟩
  have t0 := term m.c0.x m.c1.y m.c2.y m.c2.z m.c1.z a1 b2 c2 c3 b3
  have t1 := term m.c1.x m.c0.y m.c2.y m.c2.z m.c0.z b1 a2 c2 c3 a3
  have t2 := term m.c2.x m.c0.y m.c1.y m.c1.z m.c0.z c1 a2 b2 b3 a3
  have s1 := step hr hu (minus t0.1 t1.1) (abssub t0.2 t1.2) (by linarith)
  have s1' := s1.trans (show _ ≤ 33 * u by linarith)
  have s2 := step hr hu (plus s1' t2.1) (absadd (abssub t0.2 t1.2) t2.2) (by linarith)
  exact s2.trans (by linarith)

theorem flNormalize_near (hr : IsRounding u fl) (hu : 0 ≤ u) (hu1 : u ≤ 1e-7) {v : V3} (h0 : 0.98 ≤ len v)
    (h1 : len v ≤ 1.02) : len (flNormalize fl v - normalize v) ≤ 28 * u := by
  have huu : u * u ≤ 1e-7 * u := mul_le_mul_of_nonneg_right hu1 hu
  have sm := small_of_len (h1.trans (by norm_num))
  have hd := flDot_near hr hu hu1 sm sm
  rw [← len_sq'] at hd
  set d := flDot fl v v with hdd
  set l := len v with hl
  have hd1 := abs_le.mp hd
  have hdpos : 0.9409 ≤ d := by nlinarith
  have hs0 : 0.97 ≤ Real.sqrt d := by
    rw [show (0.97 : ℝ) = Real.sqrt (0.97 ^ 2) by rw [Real.sqrt_sq (by norm_num)]]
    exact Real.sqrt_le_sqrt (by linarith)
  have hss : Real.sqrt d * Real.sqrt d = d := Real.mul_self_sqrt (by linarith)
  have hs : |Real.sqrt d - l| ≤ 7.7 * u := by
    have e : (Real.sqrt d - l) * (Real.sqrt d + l) = d - l ^ 2 := by linear_combination hss
    have e2 : |Real.sqrt d - l| * (Real.sqrt d + l) ≤ 15 * u := by
      rw [← abs_of_nonneg (show 0 ≤ Real.sqrt d + l by linarith), ← abs_mul, e]; exact hd
    have := mul_le_mul_of_nonneg_left (show (1.95 : ℝ) ≤ Real.sqrt d + l by linarith) (abs_nonneg (Real.sqrt d - l))
    linarith
  have hs' := (step hr hu hs (show |l| ≤ 1.02 by rw [abs_of_nonneg (by linarith)]; exact h1) (by linarith)).trans
    (show _ ≤ 9.8 * u by linarith)
  set s := fl (Real.sqrt d) with hsd
  have hsl : 0.97 ≤ s := by linarith [(abs_le.mp hs').1]
  have hinv : |1 / s - 1 / l| ≤ 10.4 * u := by
    have e : 1 / s - 1 / l = (l - s) / (s * l) := by field_simp
    rw [e, abs_div, abs_sub_comm, div_le_iff₀ (by rw [abs_of_pos (by nlinarith)]; nlinarith), abs_of_pos (a := s * l) (by nlinarith)]
    have : 0.95 ≤ s * l := by nlinarith
    have := mul_le_mul_of_nonneg_left this (show 0 ≤ 10.4 * u by linarith)
    linarith
  have hil : |1 / l| ≤ 1.0205 := by
    rw [abs_of_pos (by apply one_div_pos.mpr; linarith), div_le_iff₀ (by linarith)]; linarith
  have hr' := (step hr hu hinv hil (by linarith)).trans (show _ ≤ 12.5 * u by linarith)
  set r := fl (1 / s) with hrd
  have hrb : |r| ≤ 1.03 := by
    have := abs_add_le (1 / l) (r - 1 / l)
    rw [add_sub_cancel] at this
    linarith
  have hc : ∀ c : ℝ, |c| ≤ 1.02 → |fl (c * r) - 1 / l * c| ≤ 16 * u := by
    intro c hc
    have p := prod hc hrb (self0 c) hr'
    rw [mul_comm c (1 / l)] at p
    have q := absmul hil hc
    exact (step hr hu p q (by linarith)).trans (by linarith)
  have k := len_of_comp (a := flNormalize fl v - normalize v) (e := 16 * u)
    (hc v.x ((comp_le v).1.trans h1)) (hc v.y ((comp_le v).2.1.trans h1)) (hc v.z ((comp_le v).2.2.trans h1))
  linarith

theorem len_le_add {a b : V3} {k l : ℝ} (h : len (a - b) ≤ k) (hb : len b ≤ l) : len a ≤ l + k := by
  have := (abs_le.mp (len_near h)).2; linarith

/-- The rounded Gram–Schmidt stays within `200 u` of the exact one. -/
theorem flOrthonormalize_near (hr : IsRounding u fl) (hu : 0 ≤ u) (hu1 : u ≤ 1e-7) {e : ℝ} {p h : M3} (hh : Ortho h)
    (he : e ≤ 1e-4) (hp : Near e p h) : Near (200 * u) (flOrthonormalize fl p) (orthonormalize p) := by
  have huu : u * u ≤ 1e-7 * u := mul_le_mul_of_nonneg_right hu1 hu
  obtain ⟨h0, h1, _⟩ := hp.cols
  have he0 : 0 ≤ e := le_trans (len_nn _) h0
  have l0 : len h.c0 = 1 := len_unit hh.xx
  have l1 : len h.c1 = 1 := len_unit hh.yy
  have n0 := abs_le.mp (len_near h0)
  have n1 := abs_le.mp (len_near h1)
  rw [l0] at n0
  rw [l1] at n1
  have hdet : p.det ≠ 0 := by
    have := abs_le.mp (det_near hh (by linarith) hp)
    intro h0; rw [h0] at this; linarith [this.1]
  have hG := orthonormalize_isOrtho hdet
  have hN := (orthonormalize_near hh (by linarith) hp).cols
  -- the first column
  have hx := flNormalize_near hr hu hu1 (v := p.c0) (by linarith) (by linarith)
  set x := normalize p.c0 with hxd
  set x' := flNormalize fl p.c0 with hxd'
  have lx : len x = 1 := len_unit hG.xx
  have lx' : len x' ≤ 1 + 28 * u := len_le_add hx lx.le
  -- the part of the second column along the first
  have ht1 := flDot_near hr hu hu1 (small_of_len (v := p.c1) (by linarith))
    (small_of_len (v := x') (by linarith))
  set t' := flDot fl p.c1 x' with htd'
  set t := dot p.c1 x with htd
  have ht : |t' - t| ≤ 43.1 * u := by
    have a := dot_le p.c1 (x' - x)
    rw [dot_sub_right] at a
    have b := abs_add_le (t' - dot p.c1 x') (dot p.c1 x' - t)
    have e1 : t' - dot p.c1 x' + (dot p.c1 x' - t) = t' - t := by ring
    rw [e1] at b
    have c := mul_le_mul (show len p.c1 ≤ 1.0001 by linarith) hx (len_nn _) (by norm_num)
    linarith
  have htb : |t| ≤ 1.0001 := by
    have := dot_le p.c1 x
    rw [lx, mul_one] at this
    linarith
  have htb' : |t'| ≤ 1.001 := by
    have := abs_add_le t (t' - t)
    rw [add_sub_cancel] at this
    linarith
  set w' : V3 := ⟨fl (p.c1.x - fl (t' * x'.x)), fl (p.c1.y - fl (t' * x'.y)), fl (p.c1.z - fl (t' * x'.z))⟩ with hw'
  have hc : ∀ a b : ℝ, |a| ≤ 1.0001 → |b| ≤ 1.0001 → |fl (a - fl (t' * b)) - (a - t' * b)| ≤ 5.1 * u := by
    intro a b ha hb
    have m1 := step hr hu (self0 (t' * b)) (absmul htb' hb) (by norm_num)
    have m1' := m1.trans (show _ ≤ 2.01 * u by linarith)
    have m2 := step hr hu (minus (self0 a) m1') (abssub ha (absmul htb' hb)) (by linarith)
    exact m2.trans (by linarith)
  have hxs : len x' ≤ 1.0001 := by linarith
  have hps : len p.c1 ≤ 1.0001 := by linarith
  have hw1 : len (w' - (p.c1 - t' * x')) ≤ 9 * u := by
    have := len_of_comp (a := w' - (p.c1 - t' * x')) (e := 5.1 * u)
      (hc _ _ ((comp_le p.c1).1.trans hps) ((comp_le x').1.trans hxs))
      (hc _ _ ((comp_le p.c1).2.1.trans hps) ((comp_le x').2.1.trans hxs))
      (hc _ _ ((comp_le p.c1).2.2.trans hps) ((comp_le x').2.2.trans hxs))
    linarith
  have hw2 : len ((p.c1 - t' * x') - (p.c1 - t * x)) ≤ 71.2 * u := by
    have e1 : (p.c1 - t' * x') - (p.c1 - t * x) = (t - t') * x' + (-t) * (x' - x) := by ext <;> simp <;> ring
    rw [e1]
    have a := len_add ((t - t') * x') ((-t) * (x' - x))
    rw [len_smul, len_smul, abs_neg, abs_sub_comm] at a
    have b := mul_le_mul ht hxs (len_nn _) (by linarith)
    have c := mul_le_mul htb hx (len_nn _) (by norm_num)
    linarith
  have hw : len (w' - (p.c1 - t * x)) ≤ 80.2 * u := by linarith [len_tri w' (p.c1 - t' * x') (p.c1 - t * x)]
  -- the exact second direction has a length of nearly one
  have hwl : |len (p.c1 - t * x) - 1| ≤ 4 * e := by
    have e1 : (p.c1 - t * x) - h.c1 = (p.c1 - h.c1) + (-t) * x := by ext <;> simp <;> ring
    have tb : |t| ≤ 2.03 * e := by
      have hx1 := normalize_near_unit hh.xx (show e ≤ 1 / 50 by linarith) h0
      have e1 : t = dot (p.c1 - h.c1) x + dot h.c1 (x - h.c0) := by
        rw [dot_sub_right]
        have := hh.xy
        rw [dot_comm] at this
        rw [this, htd]; simp only [dot, sub_x, sub_y, sub_z]; ring
      rw [e1]
      have a1 := dot_le (p.c1 - h.c1) x
      have a2 := dot_le h.c1 (x - h.c0)
      rw [lx] at a1
      rw [l1] at a2
      have := abs_add_le (dot (p.c1 - h.c1) x) (dot h.c1 (x - h.c0))
      linarith
    have a := len_add (p.c1 - h.c1) ((-t) * x)
    rw [len_smul, abs_neg, lx] at a
    have : len ((p.c1 - t * x) - h.c1) ≤ 4 * e := by rw [e1]; linarith
    have := len_near this
    rwa [l1] at this
  have hwl1 := abs_le.mp hwl
  have hwn := abs_le.mp (len_near hw)
  have hy1 := flNormalize_near hr hu hu1 (v := w') (by linarith) (by linarith)
  have hy2 := normalize_near (a := w') (b := p.c1 - t * x) (by linarith) (by linarith) hw
  set y := normalize (p.c1 - t * x) with hyd
  set y' := flNormalize fl w' with hyd'
  have hy : len (y' - y) ≤ 110 * u := by linarith [len_tri y' (normalize w') y]
  have ly : len y = 1 := len_unit hG.yy
  have ly' : len y' ≤ 1 + 110 * u := len_le_add hy ly.le
  have hz1 := flCross_near hr hu hu1 (small_of_len (v := x') (by linarith))
    (small_of_len (v := y') (by linarith))
  have hz : len (flCross fl x' y' - cross x y) ≤ 152.1 * u := by
    have a := len_tri (flCross fl x' y') (cross x' y') (cross x y)
    rw [cross_sub x' y' x y] at a
    have b := len_add (cross (x' - x) y') (cross x (y' - y))
    have c := len_cross (x' - x) y'
    have d := len_cross x (y' - y)
    rw [lx] at d
    have f := mul_le_mul hx (show len y' ≤ 1.0001 by linarith) (len_nn _) (by linarith)
    linarith
  exact near_of_cols (a := ⟨x', y', flCross fl x' y'⟩) (b := ⟨x, y, cross x y⟩) (by linarith) hx hy hz
    (by nlinarith [sq_nonneg u])

/-- `set_matrix_` on a matrix within `5·10⁻⁵` of a rotation: it is taken, and what is stored is within `200 u` of a
rotation no further than six times as far from the one it was near to. -/
theorem flSetMatrix_near (hr : IsRounding u fl) (hu : 0 ≤ u) (hu1 : u ≤ 1e-7) {e : ℝ} {p h : M3} (hh : Ortho h)
    (he : e ≤ 1e-4) (hp : Near e p h) :
    ∃ s g, flSetMatrix fl p = some s ∧ Ortho g ∧ Near (200 * u) s g ∧ Near (6 * e) g h := by
  obtain ⟨h0, h1, h2⟩ := hp.cols
  have he0 : 0 ≤ e := le_trans (len_nn _) h0
  have n0 := len_le_add h0 (len_unit hh.xx).le
  have n1 := len_le_add h1 (len_unit hh.yy).le
  have n2 := len_le_add h2 (len_unit hh.zz).le
  have d1 := det_near hh (by linarith) hp
  have d2 := flDet_near hr hu hu1 (m := p) (small_of_len (by linarith))
    (small_of_len (by linarith)) (small_of_len (by linarith))
  have hth := hr 1e-3 (by norm_num [abs_le])
  rw [abs_of_pos (a := (1e-3 : ℝ)) (by norm_num)] at hth
  have hth1 := (abs_le.mp hth).1
  have hd : ¬ |flDet fl p - 1| > fl 1e-3 := by
    have := abs_add_le (flDet fl p - p.det) (p.det - 1)
    have e1 : flDet fl p - p.det + (p.det - 1) = flDet fl p - 1 := by ring
    rw [e1] at this
    linarith
  refine ⟨flOrthonormalize fl p, orthonormalize p, by rw [flSetMatrix, if_neg hd], orthonormalize_isOrtho ?_,
    flOrthonormalize_near hr hu hu1 hh he hp, orthonormalize_near hh (by linarith) hp⟩
  have := abs_le.mp d1
  intro h0; rw [h0] at this; linarith [this.1]

theorem flMul_near (hr : IsRounding u fl) (hu : 0 ≤ u) (hu1 : u ≤ 1e-7) {a b g h : M3} (hg : Ortho g) (hh : Ortho h)
    (ha : Near (200 * u) a g) (hb : Near (200 * u) b h) : Near (449 * u) (flMul fl a b) (g.mul h) := by
  have huu : u * u ≤ 1e-7 * u := mul_le_mul_of_nonneg_right hu1 hu
  have small : ∀ {m k : M3}, Ortho k → Near (200 * u) m k → Small m.c0 ∧ Small m.c1 ∧ Small m.c2 := by
    intro m k hk hm
    obtain ⟨h0, h1, h2⟩ := hm.cols
    have n0 := len_le_add h0 (len_unit hk.xx).le
    have n1 := len_le_add h1 (len_unit hk.yy).le
    have n2 := len_le_add h2 (len_unit hk.zz).le
    exact ⟨small_of_len (by linarith), small_of_len (by linarith),
      small_of_len (by linarith)⟩
  obtain ⟨a0, a1, a2⟩ := small hg ha
  obtain ⟨b0, b1, b2⟩ := small hh hb
  have h1 : Near (46 * u) (flMul fl a b) (a.mul b) :=
    near_of_cols (by linarith) (flMulVec_near hr hu hu1 a0 a1 a2 b0) (flMulVec_near hr hu hu1 a0 a1 a2 b1)
      (flMulVec_near hr hu hu1 a0 a1 a2 b2) (by nlinarith [sq_nonneg u])
  exact (h1.trans (ha.mul hb hg hh (by linarith))).mono (by linarith)

theorem flCast_near (hr : IsRounding u fl) (hu : 0 ≤ u) (hu1 : u ≤ 1e-7) {a g : M3} (hg : Ortho g)
    (ha : Near (200 * u) a g) : Near (207 * u) (flCast fl a) g := by
  obtain ⟨h0, h1, h2⟩ := ha.cols
  have n0 := len_le_add h0 (len_unit hg.xx).le
  have n1 := len_le_add h1 (len_unit hg.yy).le
  have n2 := len_le_add h2 (len_unit hg.zz).le
  have col : ∀ c : V3, len c ≤ 1 + 200 * u → len ((⟨fl c.x, fl c.y, fl c.z⟩ : V3) - c) ≤ 3.6 * u := by
    intro c hc
    have hc' : len c ≤ 1.001 := by linarith
    have k : ∀ x : ℝ, |x| ≤ 1.001 → |fl x - x| ≤ 2.01 * u := by
      intro x hx
      have := hr x (by linarith)
      have := mul_le_mul_of_nonneg_left (a := u) (show |x| + 1 ≤ 2.001 by linarith) hu
      linarith
    have := len_of_comp (a := (⟨fl c.x, fl c.y, fl c.z⟩ : V3) - c) (e := 2.01 * u) (k _ ((comp_le c).1.trans hc'))
      (k _ ((comp_le c).2.1.trans hc')) (k _ ((comp_le c).2.2.trans hc'))
    linarith
  have : Near (7 * u) (flCast fl a) a :=
    near_of_cols (by linarith) (col a.c0 n0) (col a.c1 n1) (col a.c2 n2) (by nlinarith [sq_nonneg u])
  exact (this.trans ha).mono (by linarith)

end steps

/-- The invariant of all histories. -/
theorem Calls.run_near {u : ℝ} (hu : 0 ≤ u) (hu1 : u ≤ 1e-7) (e : Calls) (h : e.Ok u) :
    ∃ s g, e.run = some s ∧ Ortho g ∧ Ortho e.exact ∧ Near (200 * u) s g ∧ Near (2700 * e.count * u) g e.exact := by
  induction e with
  | identity =>
    exact ⟨M3.one, M3.one, rfl, ortho_one, ortho_one, (Near.refl _).mono (by linarith), (Near.refl _).mono (by simp [Calls.count])⟩
  | matrix fl m x =>
    obtain ⟨hr, hx, hm⟩ := h
    obtain ⟨s, g, h1, h2, h3, h4⟩ := flSetMatrix_near hr hu hu1 hx.ortho (by linarith) hm
    exact ⟨s, g, h1, h2, hx.ortho, h3, h4.mono (by simp [Calls.count]; linarith)⟩
  | inverse fl e ih =>
    obtain ⟨hr, he⟩ := h
    obtain ⟨s, g, h1, h2, h3, h4, h5⟩ := ih he
    obtain ⟨s', g', k1, k2, k3, k4⟩ := flSetMatrix_near hr hu hu1 h2.transpose (by linarith)
      (h4.transpose (by linarith))
    refine ⟨s', g', by rw [Calls.run, h1]; exact k1, k2, h3.transpose, k3, ?_⟩
    refine (k4.trans (h5.transpose (by positivity))).mono ?_
    simp only [Calls.count]; push_cast; linarith
  | compose fl a b iha ihb =>
    obtain ⟨hr, ha, hb⟩ := h
    obtain ⟨sa, ga, a1, a2, a3, a4, a5⟩ := iha ha
    obtain ⟨sb, gb, b1, b2, b3, b4, b5⟩ := ihb hb
    obtain ⟨s', g', k1, k2, k3, k4⟩ := flSetMatrix_near hr hu hu1 (a2.mul b2) (by linarith)
      (flMul_near hr hu hu1 a2 b2 a4 b4)
    refine ⟨s', g', by rw [Calls.run, a1, b1]; exact k1, k2, a3.mul b3, k3, ?_⟩
    refine (k4.trans (a5.mul_rot b5 a3 b2)).mono ?_
    simp only [Calls.count]; push_cast; linarith
  | cast fl e ih =>
    obtain ⟨hr, he⟩ := h
    obtain ⟨s, g, h1, h2, h3, h4, h5⟩ := ih he
    obtain ⟨s', g', k1, k2, k3, k4⟩ := flSetMatrix_near hr hu hu1 h2 (by linarith)
      (flCast_near hr hu hu1 h2 h4)
    refine ⟨s', g', by rw [Calls.run, h1]; exact k1, k2, h3, k3, ?_⟩
    refine (k4.trans h5).mono ?_
    simp only [Calls.count]; push_cast; linarith

/-! ## The property -/

/-- **C155.** Whatever chain of constructions, products, inverses and conversions between `float` and `double` is made, of
any length and shape, and however each operation rounds: no call throws, and the rotation obtained sends every vector to
within `(2700 n + 200) u` times its length of where the exact rotation sends it, `n` being the number of calls. The error
grows with the number of calls, not with a power of it. -/
theorem C155 (u : ℝ) (hu : 0 ≤ u) (hu1 : u ≤ 1e-7) (e : Calls) (h : e.Ok u) :
    ∃ m, e.run = some m ∧ IsRotation e.exact ∧
      ∀ v : V3, len (m.mulVec v - e.exact.mulVec v) ≤ (2700 * e.count + 200) * u * len v := by
  obtain ⟨s, g, h1, _, h3, h4, h5⟩ := e.run_near hu hu1 h
  exact ⟨s, h1, h3.isRotation, ((h4.trans h5).mono (by linarith) : Near _ _ _)⟩

/-- **C155, always a rotation.** However long the chain, what is stored is within `200 u` of a true rotation; its axes have
length one within `200 u` and are at right angles within `401 u`. -/
theorem C155_rotation (u : ℝ) (hu : 0 ≤ u) (hu1 : u ≤ 1e-7) (e : Calls) (h : e.Ok u) :
    ∃ m g, e.run = some m ∧ IsRotation g ∧ (∀ v : V3, len (m.mulVec v - g.mulVec v) ≤ 200 * u * len v) ∧
      |len m.c0 - 1| ≤ 200 * u ∧ |len m.c1 - 1| ≤ 200 * u ∧ |len m.c2 - 1| ≤ 200 * u ∧
      |dot m.c0 m.c1| ≤ 401 * u ∧ |dot m.c1 m.c2| ≤ 401 * u ∧ |dot m.c0 m.c2| ≤ 401 * u := by
  obtain ⟨s, g, h1, h2, _, h4, _⟩ := e.run_near hu hu1 h
  have huu : u * u ≤ 1e-7 * u := mul_le_mul_of_nonneg_right hu1 hu
  obtain ⟨k0, k1, k2⟩ := h4.cols
  have l0 := len_near k0
  have l1 := len_near k1
  have l2 := len_near k2
  have g0 := len_unit h2.xx
  have g1 := len_unit h2.yy
  have g2 := len_unit h2.zz
  rw [g0] at l0
  rw [g1] at l1
  rw [g2] at l2
  have perp : ∀ a b c d : V3, dot c d = 0 → len c = 1 → len d = 1 → len (a - c) ≤ 200 * u → len (b - d) ≤ 200 * u →
      |dot a b| ≤ 401 * u := by
    intro a b c d h0 hc hd ha hb
    have e1 : dot a b = dot (a - c) b + dot c (b - d) := by
      rw [dot_sub_right, h0]; simp only [dot, sub_x, sub_y, sub_z]; ring
    have a1 := dot_le (a - c) b
    have a2 := dot_le c (b - d)
    rw [hc] at a2
    have hb' : len b ≤ 1 + 200 * u := len_le_add hb hd.le
    have a3 := mul_le_mul ha hb' (len_nn _) (by linarith)
    have := abs_add_le (dot (a - c) b) (dot c (b - d))
    rw [e1]; linarith
  have z1 : dot g.c1 g.c2 = 0 := by rw [h2.z]; exact dot_cross_right _ _
  have z2 : dot g.c0 g.c2 = 0 := by rw [h2.z]; exact dot_cross_left _ _
  exact ⟨s, g, h1, h2.isRotation, h4, l0, l1, l2, perp _ _ _ _ h2.xy g0 g1 k0 k1, perp _ _ _ _ z1 g1 g2 k1 k2,
    perp _ _ _ _ z2 g0 g2 k0 k2⟩

/-- **C155, there and back.** `r.inverse() * (r * v)` is `v` within `1601 u` of its length, however long the chain that
made `r` (products of matrix and vector taken exactly). -/
theorem C155_round_trip (u : ℝ) (hu : 0 ≤ u) (hu1 : u ≤ 1e-7) (e : Calls) (fl : ℝ → ℝ) (hr : IsRounding u fl)
    (h : e.Ok u) : ∃ m i, e.run = some m ∧ (Calls.inverse fl e).run = some i ∧
      ∀ v : V3, len (i.mulVec (m.mulVec v) - v) ≤ 1601 * u * len v := by
  have huu : u * u ≤ 1e-7 * u := mul_le_mul_of_nonneg_right hu1 hu
  obtain ⟨s, g, h1, h2, _, h4, _⟩ := e.run_near hu hu1 h
  obtain ⟨s', g', k1, k2, k3, k4⟩ := flSetMatrix_near hr hu hu1 h2.transpose (by linarith) (h4.transpose (by linarith))
  refine ⟨s, s', h1, by rw [Calls.run, h1]; exact k1, ?_⟩
  have hn := (k3.trans k4).mul h4 h2.transpose h2 (by linarith)
  intro v
  have := hn v
  rw [mul_mulVec, mul_mulVec, h2.transpose_left] at this
  refine this.trans (mul_le_mul_of_nonneg_right ?_ (len_nn v))
  linarith

/-- **C155, turned vectors.** The vector `r * v` as computed, for `v` no longer than one, is within `(2700 n + 227) u` of
the exact one. -/
theorem C155_apply (u : ℝ) (hu : 0 ≤ u) (hu1 : u ≤ 1e-7) (e : Calls) (fl : ℝ → ℝ) (hr : IsRounding u fl) (h : e.Ok u)
    (v : V3) (hv : len v ≤ 1) : ∃ m, e.run = some m ∧
      len (flMulVec fl m v - e.exact.mulVec v) ≤ (2700 * e.count + 227) * u := by
  obtain ⟨s, g, h1, h2, h3, h4, h5⟩ := e.run_near hu hu1 h
  obtain ⟨k0, k1, k2⟩ := h4.cols
  have n0 := len_le_add k0 (len_unit h2.xx).le
  have n1 := len_le_add k1 (len_unit h2.yy).le
  have n2 := len_le_add k2 (len_unit h2.zz).le
  have a := flMulVec_near hr hu hu1 (m := s) (v := v) (small_of_len (by linarith)) (small_of_len (by linarith))
    (small_of_len (by linarith)) (small_of_len (by linarith))
  have b := (h4.trans h5) v
  have c := len_tri (flMulVec fl s v) (s.mulVec v) (e.exact.mulVec v)
  have hc : (0 : ℝ) ≤ 2700 * e.count * u := by positivity
  have d := mul_le_mul_of_nonneg_left hv (show 0 ≤ 200 * u + 2700 * e.count * u by linarith)
  exact ⟨s, h1, by linarith⟩

/-! ## The hypotheses are met -/

/-- rounding to the nearest multiple of `2⁻²⁴` -/
noncomputable def grid (x : ℝ) : ℝ := (round (x * 2 ^ 24) : ℤ) / 2 ^ 24

theorem grid_rounding : IsRounding (1 / 2 ^ 24) grid := by
  intro x _
  have h := abs_sub_round (x * 2 ^ 24)
  have e : grid x - x = -((x * 2 ^ 24 - (round (x * 2 ^ 24) : ℤ)) / 2 ^ 24) := by unfold grid; field_simp; ring
  rw [e, abs_neg, abs_div, abs_of_pos (a := (2 ^ 24 : ℝ)) (by norm_num), div_le_iff₀ (by norm_num)]
  have : 1 / 2 ^ 24 * (|x| + 1) * 2 ^ 24 = |x| + 1 := by ring
  rw [this]
  have hx := abs_nonneg x
  exact h.trans (by linarith)

/-- a turn by the angle with cosine 3/5 about the z axis -/
noncomputable def exTurn : M3 := ⟨⟨3 / 5, 4 / 5, 0⟩, ⟨-(4 / 5), 3 / 5, 0⟩, ⟨0, 0, 1⟩⟩

theorem exTurn_rot : IsRotation exTurn := by
  rw [isRotation_iff]
  refine ⟨?_, ?_, ?_, ?_⟩ <;> simp only [exTurn, dot, cross] <;> norm_num

/-- `n` turns one after the other, each handed in as rounded by `grid` -/
noncomputable def exChain : ℕ → Calls
  | 0 => .identity
  | n + 1 => .compose grid (exChain n) (.cast grid (.inverse grid (.matrix grid (flCast grid exTurn) exTurn)))

theorem exChain_ok (n : ℕ) : (exChain n).Ok (1 / 2 ^ 24) ∧ (exChain n).count = 4 * n := by
  have hm : Near (200 * (1 / 2 ^ 24)) (flCast grid exTurn) exTurn :=
      (near_of_cols (d0 := 4 / 2 ^ 24) (d1 := 4 / 2 ^ 24) (d2 := 4 / 2 ^ 24) (by norm_num)
        (by
          have k := grid_rounding
          have := len_of_comp (a := (flCast grid exTurn).c0 - exTurn.c0) (e := 2 / 2 ^ 24)
            ((k _ (by norm_num [exTurn, abs_le])).trans (by norm_num [exTurn, abs_of_pos]))
            ((k _ (by norm_num [exTurn, abs_le])).trans (by norm_num [exTurn, abs_of_pos]))
            ((k _ (by norm_num [exTurn, abs_le])).trans (by norm_num [exTurn, abs_of_pos]))
          linarith)
        (by
          have k := grid_rounding
          have := len_of_comp (a := (flCast grid exTurn).c1 - exTurn.c1) (e := 2 / 2 ^ 24)
            ((k _ (by norm_num [exTurn, abs_le])).trans (by norm_num [exTurn, abs_of_pos]))
            ((k _ (by norm_num [exTurn, abs_le])).trans (by norm_num [exTurn, abs_of_pos]))
            ((k _ (by norm_num [exTurn, abs_le])).trans (by norm_num [exTurn, abs_of_pos]))
          linarith)
        (by
          have k := grid_rounding
          have := len_of_comp (a := (flCast grid exTurn).c2 - exTurn.c2) (e := 2 / 2 ^ 24)
            ((k _ (by norm_num [exTurn, abs_le])).trans (by norm_num [exTurn, abs_of_pos]))
            ((k _ (by norm_num [exTurn, abs_le])).trans (by norm_num [exTurn, abs_of_pos]))
            ((k _ (by norm_num [exTurn, abs_le])).trans (by norm_num [exTurn, abs_of_pos]))
          linarith)
        (by norm_num))
  constructor
  · induction n with
    | zero => trivial
    | succ n ih => exact ⟨grid_rounding, ih, grid_rounding, grid_rounding, grid_rounding, exTurn_rot, hm⟩
  · induction n with
    | zero => rfl
    | succ n ih => simp only [exChain, Calls.count, ih]; ring

end Huira.RotFl
