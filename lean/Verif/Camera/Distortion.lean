import Mathlib.Data.Real.Sqrt
import Mathlib.Analysis.SpecificLimits.Basic
import Mathlib.Tactic.Ring
import Mathlib.Tactic.Linarith
import Mathlib.Tactic.FieldSimp
set_option linter.unusedSimpArgs false
/-!
# Lens distortion models (C42)

`include/huira_impl/cameras/distortion/{brown,owen,opencv}_distortion.ipp`, `include/huira/cameras/distortion/distortion.hpp`.
Exact real arithmetic: the roundings to float on entry and exit are left out.
-/
namespace Huira.Camera.Lenses
noncomputable section
open Classical

/-- `BasePixel` (core/types.hpp): two coordinates with componentwise arithmetic. -/
@[ext] structure P2 where
  x : ℝ
  y : ℝ

namespace P2
def add (a b : P2) : P2 := ⟨a.x + b.x, a.y + b.y⟩
def sub (a b : P2) : P2 := ⟨a.x - b.x, a.y - b.y⟩
def smul (s : ℝ) (a : P2) : P2 := ⟨s * a.x, s * a.y⟩
/-- `diff[0]*diff[0] + diff[1]*diff[1]` -/
def sq (a : P2) : ℝ := a.x * a.x + a.y * a.y
end P2

/-- `BrownCoefficients` (brown_distortion.hpp) -/
structure Brown where
  (k1 k2 k3 p1 p2 : ℝ)
/-- `OwenCoefficients` (owen_distortion.hpp) -/
structure Owen where
  (e1 e2 e3 e4 e5 e6 : ℝ)
/-- `OpenCVCoefficients` (opencv_distortion.hpp) -/
structure OpenCV where
  (k1 k2 k3 k4 k5 k6 p1 p2 s1 s2 s3 s4 : ℝ)

/-- `BrownDistortion::compute_delta_` (brown_distortion.ipp 33-58) -/
def Brown.delta (c : Brown) (p : P2) : P2 :=
  let x2 := p.x * p.x
  let y2 := p.y * p.y
  let r2 := x2 + y2
  let r4 := r2 * r2
  let r6 := r4 * r2
  let radial := P2.smul (c.k1 * r2 + c.k2 * r4 + c.k3 * r6) p
  let xy := p.x * p.y
  let tangential : P2 := ⟨2 * c.p1 * xy + c.p2 * (r2 + 2 * x2), c.p1 * (r2 + 2 * y2) + 2 * c.p2 * xy⟩
  P2.add radial tangential

/-- `OwenDistortion::compute_delta_` (owen_distortion.ipp 33-58) -/
def Owen.delta (c : Owen) (p : P2) : P2 :=
  let r2 := p.x * p.x + p.y * p.y
  let r := Real.sqrt r2
  let r3 := r * r2
  let r4 := r2 * r2
  let radial := c.e2 * r2 + c.e4 * r4 + c.e5 * p.y + c.e6 * p.x
  let rotated := c.e1 * r + c.e3 * r3
  P2.add (P2.smul radial p) (P2.smul rotated ⟨-p.y, p.x⟩)

/-- `std::copysign(m, v)` for `m > 0` (a zero `v` is taken as +0) -/
def copysign (m v : ℝ) : ℝ := if v < 0 then -m else m

/-- `OpenCVDistortion::compute_delta_` (opencv_distortion.ipp 35-75) -/
def OpenCV.delta (c : OpenCV) (p : P2) : P2 :=
  let x2 := p.x * p.x
  let y2 := p.y * p.y
  let r2 := x2 + y2
  let r4 := r2 * r2
  let r6 := r4 * r2
  let num := 1 + c.k1 * r2 + c.k2 * r4 + c.k3 * r6
  let raw := 1 + c.k4 * r2 + c.k5 * r4 + c.k6 * r6
  let den := if |raw| < 1e-10 then copysign 1e-10 raw else raw
  let xy := p.x * p.y
  let tp : P2 := ⟨2 * c.p1 * xy + c.p2 * (r2 + 2 * x2) + c.s1 * r2 + c.s2 * r4,
                  c.p1 * (r2 + 2 * y2) + 2 * c.p2 * xy + c.s3 * r2 + c.s4 * r4⟩
  P2.add (P2.smul (num / den) p) tp

/-- `distort` of all three models (brown 69-72, owen 69-72, opencv 86-89) -/
def distort (delta : P2 → P2) (p : P2) : P2 := P2.add p (delta p)

/-- The fixed-point loop of `undistort` of all three models (brown 97-110, owen 89-102, opencv 106-119): `n` iterations
left, current estimate `x`. -/
def undistortLoop (delta : P2 → P2) (tolSq : ℝ) (h : P2) : Nat → P2 → P2
  | 0, x => x
  | n + 1, x =>
    let new := P2.sub h (delta x)
    if P2.sq (P2.sub new x) < tolSq then new else undistortLoop delta tolSq h n new

/-- `undistort` with the default 20 iterations and tolerance 1e-6 (distortion.hpp 59-61). -/
def undistort (delta : P2 → P2) (h : P2) : P2 := undistortLoop delta 1e-12 h 20 h

/-! ## C42 -/

/-- **C42, first half, full statement**: with all coefficients zero each of the three models is the identity. -/
def C42_full : Prop :=
  (∀ p, distort (Brown.delta ⟨0, 0, 0, 0, 0⟩) p = p) ∧ (∀ p, distort (Owen.delta ⟨0, 0, 0, 0, 0, 0⟩) p = p) ∧
  (∀ p, distort (OpenCV.delta ⟨0, 0, 0, 0, 0, 0, 0, 0, 0, 0, 0, 0⟩) p = p)

/-- **C42 (partial).** Brown and Owen with zero coefficients are the identity, both ways. -/
theorem C42_zero_identity_partial (p : P2) :
    distort (Brown.delta ⟨0, 0, 0, 0, 0⟩) p = p ∧ undistort (Brown.delta ⟨0, 0, 0, 0, 0⟩) p = p ∧
    distort (Owen.delta ⟨0, 0, 0, 0, 0, 0⟩) p = p ∧ undistort (Owen.delta ⟨0, 0, 0, 0, 0, 0⟩) p = p := by
  have hb : ∀ q, Brown.delta ⟨0, 0, 0, 0, 0⟩ q = ⟨0, 0⟩ := by
    intro q; simp [Brown.delta, P2.add, P2.smul]
  have ho : ∀ q, Owen.delta ⟨0, 0, 0, 0, 0, 0⟩ q = ⟨0, 0⟩ := by
    intro q; simp [Owen.delta, P2.add, P2.smul]
  have hu : ∀ d : P2 → P2, (∀ q, d q = ⟨0, 0⟩) → distort d p = p ∧ undistort d p = p := by
    intro d hd
    constructor
    · simp [distort, hd, P2.add]
    · have : P2.sub p (d p) = p := by simp [hd, P2.sub]
      unfold undistort undistortLoop
      simp only [this]
      rw [if_pos]
      norm_num [P2.sq, P2.sub]
  exact ⟨(hu _ hb).1, (hu _ hb).2, (hu _ ho).1, (hu _ ho).2⟩

/-- With zero coefficients the OpenCV model doubles every point: the radial factor num/den is added to the identity
instead of replacing it. -/
theorem C42_opencv_doubles (p : P2) :
    distort (OpenCV.delta ⟨0, 0, 0, 0, 0, 0, 0, 0, 0, 0, 0, 0⟩) p = ⟨2 * p.x, 2 * p.y⟩ := by
  have : ¬ (|(1 : ℝ)| < 1e-10) := by norm_num
  simp only [distort, OpenCV.delta, P2.add, P2.smul, zero_mul, mul_zero, add_zero]
  rw [if_neg this]
  ext <;> simp <;> ring

/-- **C42 is violated** by the OpenCV model. -/
theorem C42_violated : ¬ C42_full := by
  rintro ⟨_, _, h⟩
  have := h ⟨1, 0⟩
  rw [C42_opencv_doubles] at this
  have := congrArg P2.x this
  norm_num at this

/-- The distorted OpenCV camera cannot be undone either: with zero coefficients the iteration alternates between the
origin and the input for ever, so the result is the input itself and `distort (undistort h) = 2 h`. -/
theorem C42_opencv_undistort_violated (h : P2) (hn : 1e-12 ≤ P2.sq h) :
    undistort (OpenCV.delta ⟨0, 0, 0, 0, 0, 0, 0, 0, 0, 0, 0, 0⟩) h = h := by
  have hd : ∀ q, OpenCV.delta ⟨0, 0, 0, 0, 0, 0, 0, 0, 0, 0, 0, 0⟩ q = q := by
    intro q
    have : ¬ (|(1 : ℝ)| < 1e-10) := by norm_num
    simp only [OpenCV.delta, P2.add, P2.smul, zero_mul, mul_zero, add_zero]
    rw [if_neg this]
    ext <;> simp
  have e1 : P2.sub h h = ⟨0, 0⟩ := by simp [P2.sub]
  have e2 : P2.sub h ⟨0, 0⟩ = h := by simp [P2.sub]
  have e3 : P2.sq (P2.sub ⟨0, 0⟩ h) = P2.sq h := by simp [P2.sub, P2.sq]
  have step : ∀ n, undistortLoop (OpenCV.delta ⟨0, 0, 0, 0, 0, 0, 0, 0, 0, 0, 0, 0⟩) 1e-12 h (2 * n) h = h := by
    intro n
    induction n with
    | zero => rfl
    | succ n ih =>
      have : 2 * (n + 1) = 2 * n + 1 + 1 := by ring
      rw [this]
      simp only [undistortLoop, hd, e1, e2, e3]
      rw [if_neg (not_lt.mpr hn), if_neg (not_lt.mpr hn)]
      exact ih
  exact step 10

/-- **C42, the displacement of the Brown model** is the textbook one: radial polynomial times the point, plus decentering. -/
theorem C42_brown (c : Brown) (x y : ℝ) :
    distort (Brown.delta c) ⟨x, y⟩ =
      ⟨x * (1 + c.k1 * (x ^ 2 + y ^ 2) + c.k2 * (x ^ 2 + y ^ 2) ^ 2 + c.k3 * (x ^ 2 + y ^ 2) ^ 3) + 2 * c.p1 * x * y +
          c.p2 * (3 * x ^ 2 + y ^ 2),
       y * (1 + c.k1 * (x ^ 2 + y ^ 2) + c.k2 * (x ^ 2 + y ^ 2) ^ 2 + c.k3 * (x ^ 2 + y ^ 2) ^ 3) + 2 * c.p2 * x * y +
          c.p1 * (x ^ 2 + 3 * y ^ 2)⟩ := by
  unfold distort Brown.delta P2.add P2.smul
  ext <;> simp only <;> ring

/-- **C42, the displacement of the Owen model**: a point at distance `r` from the centre moves outwards by `r` times
`e2 r² + e4 r⁴ + e5 y + e6 x` and sideways (anticlockwise) by `r` times `e1 r + e3 r³`. -/
theorem C42_owen (c : Owen) (x y : ℝ) :
    let d := Owen.delta c ⟨x, y⟩
    let r := Real.sqrt (x ^ 2 + y ^ 2)
    x * d.x + y * d.y = r ^ 2 * (c.e2 * r ^ 2 + c.e4 * r ^ 4 + c.e5 * y + c.e6 * x) ∧
    x * d.y - y * d.x = r ^ 2 * (c.e1 * r + c.e3 * r ^ 3) := by
  intro d r
  have hr : r ^ 2 = x ^ 2 + y ^ 2 := Real.sq_sqrt (by positivity)
  have hr' : Real.sqrt (x * x + y * y) = r := by simp only [r]; congr 1; ring
  simp only [d, Owen.delta, P2.add, P2.smul, hr']
  constructor
  · have e4 : r ^ 4 = (x ^ 2 + y ^ 2) ^ 2 := by rw [← hr]; ring
    rw [e4, hr]; ring
  · have e3 : r ^ 3 = r * (x ^ 2 + y ^ 2) := by rw [← hr]; ring
    rw [e3, hr]; ring

/-- **C42, the OpenCV model** as implemented: the textbook distorted point (rational radial factor, decentering, thin prism)
plus the undistorted point, whenever the denominator is not tiny; a tiny denominator is replaced by 1e-10 with its sign. -/
theorem C42_opencv (c : OpenCV) (x y : ℝ) :
    let r2 := x ^ 2 + y ^ 2
    let raw := 1 + c.k4 * r2 + c.k5 * r2 ^ 2 + c.k6 * r2 ^ 3
    let den := if 1e-10 ≤ |raw| then raw else if 0 ≤ raw then 1e-10 else -1e-10
    let k := (1 + c.k1 * r2 + c.k2 * r2 ^ 2 + c.k3 * r2 ^ 3) / den
    distort (OpenCV.delta c) ⟨x, y⟩ =
      ⟨x + (x * k + 2 * c.p1 * x * y + c.p2 * (r2 + 2 * x ^ 2) + c.s1 * r2 + c.s2 * r2 ^ 2),
       y + (y * k + c.p1 * (r2 + 2 * y ^ 2) + 2 * c.p2 * x * y + c.s3 * r2 + c.s4 * r2 ^ 2)⟩ := by
  intro r2 raw den k
  have er : x * x + y * y = r2 := by simp only [r2]; ring
  have eraw : 1 + c.k4 * r2 + c.k5 * (r2 * r2) + c.k6 * (r2 * r2 * r2) = raw := by simp only [raw]; ring
  have eden : (if |raw| < 1e-10 then copysign 1e-10 raw else raw) = den := by
    simp only [den, copysign]
    by_cases h : |raw| < 1e-10
    · rw [if_pos h, if_neg (not_le.mpr h)]
      by_cases h2 : raw < 0
      · rw [if_pos h2, if_neg (not_le.mpr h2)]
      · rw [if_neg h2, if_pos (not_lt.mp h2)]
    · rw [if_neg h, if_pos (not_lt.mp h)]
  unfold distort OpenCV.delta P2.add P2.smul
  simp only [er, eraw, eden]
  have en : (1 + c.k1 * r2 + c.k2 * (r2 * r2) + c.k3 * (r2 * r2 * r2)) / den = k := by simp only [k]; ring
  rw [en]
  ext <;> simp only [] <;> ring

/-- **C42, second half.** A point at which the iteration settles (it is its own successor) is mapped by `distort` to the
distorted input; conversely every preimage of the input is such a point. For every delta function, hence every
coefficient vector of the three models. -/
theorem C42_settled (delta : P2 → P2) (h x : P2) : P2.sub h (delta x) = x ↔ distort delta x = h := by
  unfold distort P2.sub P2.add
  constructor
  · intro e
    have e1 := congrArg P2.x e
    have e2 := congrArg P2.y e
    simp only at e1 e2
    ext <;> simp only <;> linarith
  · intro e
    have e1 := congrArg P2.x e
    have e2 := congrArg P2.y e
    simp only at e1 e2
    ext <;> simp only <;> linarith

theorem loop_spec (delta : P2 → P2) (tol : ℝ) (h : P2) (S : P2 → Prop) (hS : ∀ x, S x → S (P2.sub h (delta x)))
    (n : Nat) : ∀ x, S x →
    (∃ y, S y ∧ undistortLoop delta tol h n x = P2.sub h (delta y) ∧ P2.sq (P2.sub (distort delta y) h) < tol) ∨
    undistortLoop delta tol h n x = (fun z => P2.sub h (delta z))^[n] x := by
  induction n with
  | zero => intro x _; right; rfl
  | succ n ih =>
    intro x hx
    simp only [undistortLoop]
    split
    · rename_i hlt
      left
      refine ⟨x, hx, rfl, ?_⟩
      have : P2.sq (P2.sub (distort delta x) h) = P2.sq (P2.sub (P2.sub h (delta x)) x) := by
        unfold P2.sq P2.sub distort P2.add; simp only; ring
      rwa [this]
    · rcases ih (P2.sub h (delta x)) (hS x hx) with ⟨y, hy⟩ | hy
      · exact .inl ⟨y, hy⟩
      · right; rw [hy, Function.iterate_succ_apply]

/-- **C42, what an early exit guarantees.** Unless all twenty iterations were used up, `undistort h` is one iteration past
a point whose distortion is within 1e-6 of `h`; if the displacement is Lipschitz with constant `L` on a region `S` of the
image that the iteration does not leave, the result itself distorts to within `L * 1e-6` of `h`. -/
theorem C42_residual (delta : P2 → P2) (h : P2) (L : ℝ) (S : P2 → Prop) (hh : S h)
    (hS : ∀ x, S x → S (P2.sub h (delta x)))
    (hlip : ∀ a b, S a → S b → P2.sq (P2.sub (delta a) (delta b)) ≤ L ^ 2 * P2.sq (P2.sub a b))
    (hconv : undistort delta h ≠ (fun z => P2.sub h (delta z))^[20] h) :
    P2.sq (P2.sub (distort delta (undistort delta h)) h) ≤ (L * 1e-6) ^ 2 := by
  rcases loop_spec delta 1e-12 h S hS 20 h hh with ⟨y, hy', hy, hlt⟩ | hy
  · have hu : undistort delta h = P2.sub h (delta y) := hy
    rw [hu]
    have e1 : P2.sub (distort delta (P2.sub h (delta y))) h = P2.sub (delta (P2.sub h (delta y))) (delta y) := by
      unfold distort P2.add P2.sub; ext <;> simp only <;> ring
    rw [e1]
    have e2 : P2.sq (P2.sub (P2.sub h (delta y)) y) = P2.sq (P2.sub (distort delta y) h) := by
      unfold P2.sq P2.sub distort P2.add; simp only; ring
    have := hlip (P2.sub h (delta y)) y (hS y hy') hy'
    rw [e2] at this
    calc _ ≤ L ^ 2 * P2.sq (P2.sub (distort delta y) h) := this
      _ ≤ L ^ 2 * 1e-12 := mul_le_mul_of_nonneg_left hlt.le (sq_nonneg L)
      _ = _ := by ring
  · exact absurd hy hconv

/-- **C42, convergence.** If the displacement shrinks distances by a factor `L` along the iteration, the distortion of
the result misses the input by at most `max(L·1e-6, L^20 · |delta h|)` — in particular the iteration tends to an exact
inverse when `L < 1`. -/
theorem C42_convergence (delta : P2 → P2) (h : P2) (L : ℝ) (S : P2 → Prop) (hh : S h)
    (hS : ∀ x, S x → S (P2.sub h (delta x)))
    (hlip : ∀ a b, S a → S b → P2.sq (P2.sub (delta a) (delta b)) ≤ L ^ 2 * P2.sq (P2.sub a b)) (n : Nat) :
    P2.sq (P2.sub (distort delta ((fun z => P2.sub h (delta z))^[n] h)) h) ≤ (L ^ n) ^ 2 * P2.sq (delta h) := by
  induction n with
  | zero =>
    simp only [Function.iterate_zero, id, pow_zero, one_pow, one_mul]
    have : P2.sub (distort delta h) h = delta h := by unfold distort P2.add P2.sub; ext <;> simp
    rw [this]
  | succ n ih =>
    rw [Function.iterate_succ_apply']
    have hy : S ((fun z => P2.sub h (delta z))^[n] h) := by
      clear ih
      induction n with
      | zero => exact hh
      | succ n ih => rw [Function.iterate_succ_apply']; exact hS _ ih
    generalize (fun z => P2.sub h (delta z))^[n] h = y at ih hy ⊢
    have e1 : P2.sub (distort delta (P2.sub h (delta y))) h = P2.sub (delta (P2.sub h (delta y))) (delta y) := by
      unfold distort P2.add P2.sub; ext <;> simp only <;> ring
    rw [e1]
    have e2 : P2.sq (P2.sub (P2.sub h (delta y)) y) = P2.sq (P2.sub (distort delta y) h) := by
      unfold P2.sq P2.sub distort P2.add; simp only; ring
    calc _ ≤ L ^ 2 * P2.sq (P2.sub (P2.sub h (delta y)) y) := hlip _ _ (hS y hy) hy
      _ = L ^ 2 * P2.sq (P2.sub (distort delta y) h) := by rw [e2]
      _ ≤ L ^ 2 * ((L ^ n) ^ 2 * P2.sq (delta h)) := mul_le_mul_of_nonneg_left ih (sq_nonneg L)
      _ = _ := by ring

/-- A barrel lens k1 = -1/10 on the segment y = 0, |x| ≤ 1 with input (1/2, 0): the iteration stays in the segment and the
displacement is Lipschitz there with constant 3/10, so the two theorems apply. -/
example : let c : Brown := ⟨-(1/10), 0, 0, 0, 0⟩
    let h : P2 := ⟨1/2, 0⟩
    let S : P2 → Prop := fun p => p.y = 0 ∧ -1 ≤ p.x ∧ p.x ≤ 1
    S h ∧ (∀ x, S x → S (P2.sub h (c.delta x))) ∧
    (∀ a b, S a → S b → P2.sq (P2.sub (c.delta a) (c.delta b)) ≤ (3/10) ^ 2 * P2.sq (P2.sub a b)) := by
  intro c h S
  have hd : ∀ p : P2, p.y = 0 → c.delta p = ⟨-(1/10) * p.x ^ 3, 0⟩ := by
    intro p hp
    simp only [Brown.delta, P2.add, P2.smul, c, hp]
    ext <;> simp <;> ring
  refine ⟨by norm_num [S, h], ?_, ?_⟩
  · rintro x ⟨h0, h1, h2⟩
    rw [hd x h0]
    have a1 : x.x ^ 3 ≤ 1 := by nlinarith [sq_nonneg x.x, sq_nonneg (x.x - 1), sq_nonneg (x.x + 1)]
    have a2 : -1 ≤ x.x ^ 3 := by nlinarith [sq_nonneg x.x, sq_nonneg (x.x - 1), sq_nonneg (x.x + 1)]
    refine ⟨by simp [P2.sub, h], ?_, ?_⟩ <;> simp only [P2.sub, h] <;> linarith
  · rintro a b ⟨a0, a1, a2⟩ ⟨b0, b1, b2⟩
    rw [hd a a0, hd b b0]
    simp only [P2.sq, P2.sub, a0, b0]
    have q1 : a.x ^ 2 + a.x * b.x + b.x ^ 2 ≤ 3 := by nlinarith
    have q0 : 0 ≤ a.x ^ 2 + a.x * b.x + b.x ^ 2 := by nlinarith [sq_nonneg (a.x + b.x), sq_nonneg a.x, sq_nonneg b.x]
    have q2 : (a.x ^ 2 + a.x * b.x + b.x ^ 2) ^ 2 ≤ 9 := by nlinarith
    have := mul_le_mul_of_nonneg_left q2 (sq_nonneg (a.x - b.x))
    nlinarith
/-- A barrel lens k1 = -1/10: the point (1, 0) is the image of a point settled on, and distorts to (9/10, 0). -/
example : distort (Brown.delta ⟨-(1/10), 0, 0, 0, 0⟩) ⟨1, 0⟩ = ⟨9/10, 0⟩ ∧
    P2.sub ⟨9/10, 0⟩ (Brown.delta ⟨-(1/10), 0, 0, 0, 0⟩ ⟨1, 0⟩) = ⟨1, 0⟩ := by
  constructor
  · norm_num [distort, Brown.delta, P2.add, P2.smul]
  · norm_num [distort, Brown.delta, P2.add, P2.smul, P2.sub]

/-- **C42, shape of the models.** The radial part is along the point and depends on it only through its length, so the
distortion commutes with reversing the image when there is no decentring: for Brown with p1 = p2 = 0. -/
theorem C42_brown_odd (k1 k2 k3 : ℝ) (p : P2) :
    distort (Brown.delta ⟨k1, k2, k3, 0, 0⟩) ⟨-p.x, -p.y⟩ =
      ⟨-(distort (Brown.delta ⟨k1, k2, k3, 0, 0⟩) p).x, -(distort (Brown.delta ⟨k1, k2, k3, 0, 0⟩) p).y⟩ := by
  unfold distort Brown.delta P2.add P2.smul
  ext <;> simp <;> ring

/-- The specification of the Brown–Conrady model: `x (1 + k1 r² + k2 r⁴ + k3 r⁶) + 2 p1 x y + p2 (r² + 2 x²)` and the
same for y with p1, p2 exchanged. -/
def brownSpec (c : Brown) (x y : ℝ) : ℝ × ℝ :=
  let r := Real.sqrt (x ^ 2 + y ^ 2)
  (x * (1 + c.k1 * r ^ 2 + c.k2 * r ^ 4 + c.k3 * r ^ 6) + 2 * c.p1 * x * y + c.p2 * (r ^ 2 + 2 * x ^ 2),
   y * (1 + c.k1 * r ^ 2 + c.k2 * r ^ 4 + c.k3 * r ^ 6) + c.p1 * (r ^ 2 + 2 * y ^ 2) + 2 * c.p2 * x * y)
/-- **C42, definition.** The code computes the Brown–Conrady polynomial. -/
theorem C42_brown_spec (c : Brown) (p : P2) :
    ((distort c.delta p).x, (distort c.delta p).y) = brownSpec c p.x p.y := by
  unfold brownSpec distort Brown.delta P2.add P2.smul
  have h2 : Real.sqrt (p.x ^ 2 + p.y ^ 2) ^ 2 = p.x ^ 2 + p.y ^ 2 := Real.sq_sqrt (by positivity)
  have h4 : Real.sqrt (p.x ^ 2 + p.y ^ 2) ^ 4 = (p.x ^ 2 + p.y ^ 2) ^ 2 := by
    calc _ = (Real.sqrt (p.x ^ 2 + p.y ^ 2) ^ 2) ^ 2 := by ring
      _ = _ := by rw [h2]
  have h6 : Real.sqrt (p.x ^ 2 + p.y ^ 2) ^ 6 = (p.x ^ 2 + p.y ^ 2) ^ 3 := by
    calc _ = (Real.sqrt (p.x ^ 2 + p.y ^ 2) ^ 2) ^ 3 := by ring
      _ = _ := by rw [h2]
  simp only [h2, h4, h6]
  ext <;> simp <;> ring

end
end Huira.Camera.Lenses
