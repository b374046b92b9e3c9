import Verif.Arc.Props
import Mathlib.Analysis.SpecialFunctions.Trigonometric.Basic
set_option linter.unusedSimpArgs false
/-!
# C48: plane crossings of trajectories

Specification: `Finds f lo hi roots` says that the list is sorted, stays in the interval, contains only values within
`1e-10` of a zero of `f`, and misses no zero of `f` in the interval by more than `1e-10`.
-/
namespace Huira.Arc
noncomputable section
open Classical

/-- What a root finder must deliver for the function `f` on `[lo, hi]`. -/
structure Finds (f : ℝ → ℝ) (lo hi : ℝ) (roots : List ℝ) : Prop where
  complete : ∀ t, lo ≤ t → t ≤ hi → f t = 0 → ∃ r ∈ roots, |t - r| ≤ eps
  sound : ∀ r ∈ roots, lo ≤ r ∧ r ≤ hi ∧ ∃ t, f t = 0 ∧ |t - r| ≤ eps
  sorted : roots.Pairwise (· ≤ ·)

/-- The cubic polynomial with the given coefficients. -/
def cub (a b c d t : ℝ) : ℝ := a * t ^ 3 + b * t ^ 2 + c * t + d

theorem eps_pos : 0 < eps := by norm_num [eps]

/-! ### the list operations -/

/-- `Finds` without order, for a set of zeros. -/
def Part (S : ℝ → Prop) (lo hi : ℝ) (l : List ℝ) : Prop :=
  (∀ t, lo ≤ t → t ≤ hi → S t → ∃ r ∈ l, |t - r| ≤ eps) ∧ (∀ r ∈ l, lo ≤ r ∧ r ≤ hi ∧ ∃ t, S t ∧ |t - r| ≤ eps)

theorem clamp_mem {t lo hi : ℝ} (h : lo ≤ hi) : lo ≤ clamp t lo hi ∧ clamp t lo hi ≤ hi := by
  unfold clamp; split_ifs <;> constructor <;> linarith

theorem clamp_near {t lo hi : ℝ} (h : inRange t lo hi) : |t - clamp t lo hi| ≤ eps := by
  obtain ⟨h1, h2⟩ := h
  have := eps_pos
  unfold clamp; split_ifs <;> rw [abs_le] <;> constructor <;> linarith

theorem clamp_mono {s t lo hi : ℝ} (hl : lo ≤ hi) (h : s ≤ t) : clamp s lo hi ≤ clamp t lo hi := by
  unfold clamp; split_ifs <;> linarith

theorem clamp_of_mem {t lo hi : ℝ} (h1 : lo ≤ t) (h2 : t ≤ hi) : clamp t lo hi = t := by
  unfold clamp; rw [if_neg (by linarith), if_neg (by linarith)]

theorem part_nil (lo hi : ℝ) : Part (fun _ => False) lo hi [] := by
  constructor <;> simp

theorem part_push {S : ℝ → Prop} {lo hi : ℝ} {l : List ℝ} (hl : lo ≤ hi) (h : Part S lo hi l) (u : ℝ) :
    Part (fun t => S t ∨ t = u) lo hi (push l u lo hi) := by
  unfold push
  split_ifs with hr
  · refine ⟨?_, ?_⟩
    · rintro t h1 h2 (hs | rfl)
      · obtain ⟨r, hr, he⟩ := h.1 t h1 h2 hs
        exact ⟨r, by simp [hr], he⟩
      · exact ⟨clamp t lo hi, by simp, clamp_near hr⟩
    · intro r hm
      rw [List.mem_append, List.mem_singleton] at hm
      rcases hm with hm | rfl
      · obtain ⟨a, b, t, ht, he⟩ := h.2 r hm
        exact ⟨a, b, t, Or.inl ht, he⟩
      · exact ⟨(clamp_mem hl).1, (clamp_mem hl).2, u, Or.inr rfl, clamp_near hr⟩
  · refine ⟨?_, ?_⟩
    · rintro t h1 h2 (hs | rfl)
      · exact h.1 t h1 h2 hs
      · exact absurd ⟨by linarith [eps_pos], by linarith [eps_pos]⟩ hr
    · intro r hm
      obtain ⟨a, b, t, ht, he⟩ := h.2 r hm
      exact ⟨a, b, t, Or.inl ht, he⟩

theorem part_pushDistinct {S : ℝ → Prop} {lo hi : ℝ} {l : List ℝ} (hl : lo ≤ hi) (h : Part S lo hi l) (u : ℝ) :
    Part (fun t => S t ∨ t = u) lo hi (pushDistinct l u lo hi) := by
  have hp := part_push hl h u
  unfold pushDistinct
  split_ifs with hr
  · rw [push, if_pos hr] at hp
    cases hg : l.getLast? with
    | none => exact hp
    | some r =>
      have hrl : r ∈ l := List.mem_of_getLast? hg
      simp only []
      split_ifs with he
      · exact hp
      · refine ⟨?_, fun x hx => hp.2 x (by simp [hx])⟩
        rintro t h1 h2 (hs | rfl)
        · exact h.1 t h1 h2 hs
        · exact ⟨r, hrl, not_lt.1 he⟩
  · rw [push, if_neg hr] at hp; exact hp

theorem part_congr {S T : ℝ → Prop} {lo hi : ℝ} {l : List ℝ} (h : Part S lo hi l) (e : ∀ t, S t ↔ T t) :
    Part T lo hi l := by
  have : S = T := funext fun t => propext (e t)
  rwa [← this]

theorem mem_insertSorted {x r : ℝ} : ∀ {l : List ℝ}, r ∈ insertSorted x l ↔ r = x ∨ r ∈ l
  | [] => by simp [insertSorted]
  | y :: l => by
    unfold insertSorted
    split_ifs
    · simp
    · simp [mem_insertSorted (l := l)]; tauto

theorem mem_sort {r : ℝ} : ∀ {l : List ℝ}, r ∈ sort l ↔ r ∈ l
  | [] => by simp [sort]
  | y :: l => by
    have := mem_sort (r := r) (l := l)
    simp only [sort, List.foldr_cons] at this ⊢
    rw [mem_insertSorted, this]; simp

theorem insertSorted_sorted {x : ℝ} : ∀ {l : List ℝ}, l.Pairwise (· ≤ ·) → (insertSorted x l).Pairwise (· ≤ ·)
  | [], _ => by simp [insertSorted]
  | y :: l, h => by
    unfold insertSorted
    rw [List.pairwise_cons] at h
    split_ifs with hx
    · refine List.pairwise_cons.2 ⟨?_, List.pairwise_cons.2 h⟩
      intro z hz
      rcases List.mem_cons.1 hz with rfl | hz
      · exact hx
      · exact hx.trans (h.1 z hz)
    · refine List.pairwise_cons.2 ⟨?_, insertSorted_sorted h.2⟩
      intro z hz
      rcases mem_insertSorted.1 hz with rfl | hz
      · exact (not_le.1 hx).le
      · exact h.1 z hz

theorem sort_sorted : ∀ l : List ℝ, (sort l).Pairwise (· ≤ ·)
  | [] => by simp [sort]
  | y :: l => by
    have := sort_sorted l
    simp only [sort, List.foldr_cons] at this ⊢
    exact insertSorted_sorted this

theorem finds_sort {f : ℝ → ℝ} {lo hi : ℝ} {l : List ℝ} (h : Part (fun t => f t = 0) lo hi l) :
    Finds f lo hi (sort l) := by
  refine ⟨?_, ?_, sort_sorted l⟩
  · intro t h1 h2 h0
    obtain ⟨r, hr, he⟩ := h.1 t h1 h2 h0
    exact ⟨r, mem_sort.2 hr, he⟩
  · intro r hr
    exact h.2 r (mem_sort.1 hr)

/-! ### linear -/

theorem solveLinear_finds {a b lo hi : ℝ} (hl : lo ≤ hi) (ha : eps ≤ |a|) :
    Finds (cub 0 0 a b) lo hi (solveLinear a b lo hi) := by
  have ha0 : a ≠ 0 := by rintro rfl; rw [abs_zero] at ha; linarith [eps_pos]
  have e : solveLinear a b lo hi = push [] (-b / a) lo hi := by
    unfold solveLinear push; rw [if_neg (not_lt.2 ha)]; simp
  have hp : Part (fun t => cub 0 0 a b t = 0) lo hi (solveLinear a b lo hi) := by
    rw [e]
    refine part_congr (part_push hl (part_nil lo hi) (-b / a)) fun t => ?_
    simp only [false_or, cub]
    rw [eq_div_iff ha0]
    constructor <;> intro h <;> linarith
  refine ⟨hp.1, hp.2, ?_⟩
  rw [e]; unfold push; split_ifs <;> simp

/-! ### quadratic -/

theorem copysign_sq (m b : ℝ) : copysign m b * copysign m b = m * m := by
  unfold copysign; split_ifs <;> ring

theorem quad_q_ne {b m : ℝ} (hm : 0 < m) : b + copysign m b ≠ 0 := by
  unfold copysign
  split_ifs with h
  · intro h0; linarith
  · intro h0; linarith [not_lt.1 h]

theorem quad_roots {a b c m : ℝ} (ha : a ≠ 0) (hm : 0 < m) (hd : m * m = b * b - 4 * a * c) (t : ℝ) :
    a * t ^ 2 + b * t + c = 0 ↔
      t = -(1 / 2) * (b + copysign m b) / a ∨ t = c / (-(1 / 2) * (b + copysign m b)) := by
  have hq := quad_q_ne (b := b) hm
  have hs := copysign_sq m b
  set s := copysign m b
  have hq' : -(1 / 2) * (b + s) ≠ 0 := mul_ne_zero (by norm_num) hq
  rw [eq_div_iff ha, eq_div_iff hq']
  have key : (t * a - -(1 / 2) * (b + s)) * (t * (-(1 / 2) * (b + s)) - c)
      = -(1 / 2) * (b + s) * (a * t ^ 2 + b * t + c) := by
    have : s * s = b * b - 4 * a * c := by rw [hs, hd]
    linear_combination (-t / 4) * this
  constructor
  · intro h
    rw [h, mul_zero, mul_eq_zero] at key
    rcases key with k | k
    · left; linarith
    · right; linarith
  · intro h
    have : (t * a - -(1 / 2) * (b + s)) * (t * (-(1 / 2) * (b + s)) - c) = 0 := by
      rcases h with h | h <;> rw [h] <;> ring
    rw [key] at this
    exact (mul_eq_zero.1 this).resolve_left hq'

theorem pushDistinct_sorted {s t lo hi : ℝ} (hl : lo ≤ hi) (h : s ≤ t) :
    (pushDistinct (push [] s lo hi) t lo hi).Pairwise (· ≤ ·) := by
  unfold pushDistinct push
  split_ifs <;> simp
  split_ifs <;> simp [clamp_mono hl h]

theorem solveQuadratic_finds {a b c lo hi : ℝ} (hl : lo ≤ hi) (ha : eps ≤ |a|)
    (hd : b * b - 4 * a * c ≤ 0 ∨ eps ≤ b * b - 4 * a * c) :
    Finds (cub 0 a b c) lo hi (solveQuadratic a b c lo hi) := by
  have ha0 : a ≠ 0 := by rintro rfl; rw [abs_zero] at ha; linarith [eps_pos]
  unfold solveQuadratic
  rw [if_neg (not_lt.2 ha)]
  simp only []
  by_cases h1 : b * b - 4 * a * c < 0
  · rw [if_pos h1]
    refine ⟨?_, by simp, by simp⟩
    intro t _ _ h0
    exfalso
    have : (2 * a * t + b) ^ 2 = b * b - 4 * a * c := by
      simp only [cub] at h0; linear_combination (4 * a) * h0
    nlinarith [sq_nonneg (2 * a * t + b)]
  rw [if_neg h1]
  by_cases h2 : b * b - 4 * a * c < eps
  · rw [if_pos h2]
    have hz : b * b - 4 * a * c = 0 := by
      rcases hd with hd | hd
      · push Not at h1; linarith
      · linarith
    have hp : Part (fun t => cub 0 a b c t = 0) lo hi (push [] (-b / (2 * a)) lo hi) := by
      refine part_congr (part_push hl (part_nil lo hi) _) fun t => ?_
      simp only [false_or, cub]
      rw [eq_div_iff (by simpa using ha0)]
      have : (2 * a * t + b) ^ 2 = 4 * a * (0 * t ^ 3 + a * t ^ 2 + b * t + c) := by linear_combination hz
      constructor
      · intro h
        have h0 : 2 * a * t + b = 0 := by linarith
        rw [h0] at this
        have h4 : 4 * a ≠ 0 := by simpa using ha0
        exact (mul_eq_zero.1 (by linarith : 4 * a * (0 * t ^ 3 + a * t ^ 2 + b * t + c) = 0)).resolve_left h4
      · intro h
        rw [h, mul_zero] at this
        have := pow_eq_zero_iff (two_ne_zero) |>.1 this
        linarith
    refine ⟨hp.1, hp.2, ?_⟩
    unfold push; split_ifs <;> simp
  · rw [if_neg h2]
    have hm : 0 < Real.sqrt (b * b - 4 * a * c) := Real.sqrt_pos.2 (by push Not at h2; linarith [eps_pos])
    have hsq := Real.mul_self_sqrt (by push Not at h1; exact h1 : 0 ≤ b * b - 4 * a * c)
    have hroots := quad_roots ha0 hm hsq
    set r1 := -(1 / 2) * (b + copysign (Real.sqrt (b * b - 4 * a * c)) b) / a
    set r2 := c / (-(1 / 2) * (b + copysign (Real.sqrt (b * b - 4 * a * c)) b))
    have hp : ∀ x y, (∀ t, t = x ∨ t = y ↔ t = r1 ∨ t = r2) →
        Part (fun t => cub 0 a b c t = 0) lo hi (pushDistinct (push [] x lo hi) y lo hi) := by
      intro x y hxy
      refine part_congr (part_pushDistinct hl (part_push hl (part_nil lo hi) x) y) fun t => ?_
      simp only [false_or]
      rw [hxy, ← hroots t, cub]; simp
    split_ifs with hlt
    · have := hp r2 r1 (fun t => or_comm)
      exact ⟨this.1, this.2, pushDistinct_sorted hl hlt.le⟩
    · have := hp r1 r2 (fun t => Iff.rfl)
      exact ⟨this.1, this.2, pushDistinct_sorted hl (not_lt.1 hlt)⟩

/-! ### cubic -/

/-- The coefficients of the depressed cubic of `a t³ + b t² + c t + d`: `(t + b/(3a))³ + A (t + b/(3a)) + B = f / a`. -/
def depA (a b c : ℝ) : ℝ := c / a - (b / a) * (b / a) / 3
def depB (a b c d : ℝ) : ℝ := d / a - (b / a) * (c / a) / 3 + 2 * ((b / a) * (b / a)) * (b / a) / 27
/-- Discriminant of the monic polynomial. -/
def disc (a b c d : ℝ) : ℝ := -4 * depA a b c * depA a b c * depA a b c - 27 * depB a b c d * depB a b c d

theorem cub_depressed {a b c d : ℝ} (ha : a ≠ 0) (t : ℝ) :
    cub a b c d t = 0 ↔ (t + b / a / 3) ^ 3 + depA a b c * (t + b / a / 3) + depB a b c d = 0 := by
  have : cub a b c d t = a * ((t + b / a / 3) ^ 3 + depA a b c * (t + b / a / 3) + depB a b c d) := by
    unfold cub depA depB; field_simp; ring
  rw [this, mul_eq_zero, or_iff_right ha]

theorem cos_minus (θ : ℝ) : Real.cos (θ - 2 * Real.pi * 1 / 3) = -Real.cos θ / 2 + Real.sqrt 3 / 2 * Real.sin θ := by
  rw [Real.cos_sub, show 2 * Real.pi * 1 / 3 = Real.pi - Real.pi / 3 by ring, Real.cos_pi_sub, Real.sin_pi_sub,
    Real.cos_pi_div_three, Real.sin_pi_div_three]; ring

theorem cos_minus2 (θ : ℝ) : Real.cos (θ - 2 * Real.pi * 2 / 3) = -Real.cos θ / 2 - Real.sqrt 3 / 2 * Real.sin θ := by
  rw [Real.cos_sub, show 2 * Real.pi * 2 / 3 = Real.pi / 3 + Real.pi by ring, Real.cos_add_pi, Real.sin_add_pi,
    Real.cos_pi_div_three, Real.sin_pi_div_three]; ring

/-- The trigonometric formula gives exactly the three roots. -/
theorem trig_roots {A B : ℝ} (hd : 0 < -4 * A * A * A - 27 * B * B) (v : ℝ) :
    v ^ 3 + A * v + B = 0 ↔
      v = 2 * Real.sqrt (-A / 3) * Real.cos (Real.arccos (3 * B / (A * (2 * Real.sqrt (-A / 3)))) / 3 - 2 * Real.pi * 0 / 3) ∨
      v = 2 * Real.sqrt (-A / 3) * Real.cos (Real.arccos (3 * B / (A * (2 * Real.sqrt (-A / 3)))) / 3 - 2 * Real.pi * 1 / 3) ∨
      v = 2 * Real.sqrt (-A / 3) * Real.cos (Real.arccos (3 * B / (A * (2 * Real.sqrt (-A / 3)))) / 3 - 2 * Real.pi * 2 / 3) := by
  have hA : A < 0 := by
    by_contra h
    push Not at h
    nlinarith [mul_nonneg (mul_nonneg h h) h, mul_self_nonneg B]
  have hm0 : 0 < Real.sqrt (-A / 3) := Real.sqrt_pos.2 (by linarith)
  have hmm := Real.mul_self_sqrt (by linarith : 0 ≤ -A / 3)
  set w := Real.sqrt (-A / 3)
  have hw2 : w ^ 2 = -A / 3 := by rw [pow_two]; exact hmm
  set z := 3 * B / (A * (2 * w)) with hz
  have hAw : A * (2 * w) ≠ 0 := by
    have : A * (2 * w) < 0 := by nlinarith
    exact this.ne
  have hzz : z * (A * (2 * w)) = 3 * B := by rw [hz, div_mul_cancel₀ _ hAw]
  have hzsq : z ^ 2 ≤ 1 := by
    by_contra hc
    push Not at hc
    have e : z ^ 2 * (A ^ 2 * 4 * w ^ 2) = 9 * B ^ 2 := by
      have : (z * (A * (2 * w))) ^ 2 = (3 * B) ^ 2 := by rw [hzz]
      linear_combination this
    rw [hw2] at e
    have hpos : 0 < A ^ 2 * 4 * (-A / 3) := by
      have : 0 < A ^ 2 := by nlinarith
      have : 0 < -A / 3 := by linarith
      positivity
    nlinarith
  have hz1 : -1 ≤ z := by nlinarith
  have hz2 : z ≤ 1 := by nlinarith
  set θ := Real.arccos z / 3 with hθ
  have h3 : Real.cos (3 * θ) = z := by
    rw [hθ, show 3 * (Real.arccos z / 3) = Real.arccos z by ring, Real.cos_arccos hz1 hz2]
  rw [Real.cos_three_mul] at h3
  have hcs := Real.sin_sq_add_cos_sq θ
  have h33 : Real.sqrt 3 ^ 2 = 3 := Real.sq_sqrt (by norm_num)
  rw [cos_minus, cos_minus2, show θ - 2 * Real.pi * 0 / 3 = θ by ring]
  set x := Real.cos θ
  set y := Real.sin θ
  set k := Real.sqrt 3
  have key : (v - 2 * w * x) * (v - 2 * w * (-x / 2 + k / 2 * y)) * (v - 2 * w * (-x / 2 - k / 2 * y))
      = v ^ 3 + A * v + B := by
    have e1 : (v - 2 * w * (-x / 2 + k / 2 * y)) * (v - 2 * w * (-x / 2 - k / 2 * y))
        = v ^ 2 + 2 * w * x * v + w ^ 2 * (x ^ 2 - k ^ 2 * y ^ 2) := by ring
    rw [mul_assoc, e1, h33]
    have hy : y ^ 2 = 1 - x ^ 2 := by linarith
    rw [hy]
    have hB : 2 * w ^ 3 * (4 * x ^ 3 - 3 * x) = -B := by
      have : w ^ 3 = w * (-A / 3) := by rw [← hw2]; ring
      rw [h3, this]; linear_combination (-1 / 3) * hzz
    have e2 : (v - 2 * w * x) * (v ^ 2 + 2 * w * x * v + w ^ 2 * (x ^ 2 - 3 * (1 - x ^ 2)))
        = v ^ 3 - 3 * w ^ 2 * v - 2 * w ^ 3 * (4 * x ^ 3 - 3 * x) := by ring
    rw [e2, hB, hw2]; ring
  rw [← key, mul_eq_zero, mul_eq_zero, sub_eq_zero, sub_eq_zero, sub_eq_zero, or_assoc]

theorem double_roots {A B : ℝ} (hB : B ≠ 0) (hd : -4 * A * A * A - 27 * B * B = 0) (v : ℝ) :
    v ^ 3 + A * v + B = 0 ↔ v = 3 * B / A ∨ v = -(3 * B / A) / 2 := by
  have hA : A ≠ 0 := by
    rintro rfl
    apply hB
    have : B * B = 0 := by linarith
    simpa using this
  have hu : (3 * B / A) * A = 3 * B := by field_simp
  set u := 3 * B / A
  have hu2 : u ^ 2 = -4 * A / 3 := by
    have : A ^ 2 * (u ^ 2 + 4 * A / 3) = 0 := by linear_combination (u * A + 3 * B) * hu - (1 / 3 : ℝ) * hd
    have := (mul_eq_zero.1 this).resolve_left (pow_ne_zero 2 hA)
    linarith
  have key : v ^ 3 + A * v + B = (v - u) * (v - -u / 2) ^ 2 := by
    linear_combination (3 * v / 4 + u / 4) * hu2 - (1 / 3 : ℝ) * hu
  rw [key, mul_eq_zero, pow_eq_zero_iff two_ne_zero, sub_eq_zero, sub_eq_zero]

theorem triple_root {A : ℝ} (hd : -4 * A * A * A = 0) (v : ℝ) : v ^ 3 + A * v + 0 = 0 ↔ v = 0 := by
  have hA : A = 0 := by
    by_contra h
    have : -4 * A * A * A ≠ 0 := by simp [h]
    exact this hd
  rw [hA]; simp

/-- Three distinct real roots (discriminant above the threshold), or a double/triple root: found exactly. -/
theorem solveCubic_finds {a b c d lo hi : ℝ} (hl : lo ≤ hi) (ha : eps ≤ |a|)
    (hd : eps < disc a b c d ∨ (disc a b c d = 0 ∧ (depB a b c d = 0 ∨ eps ≤ |depB a b c d|))) :
    Finds (cub a b c d) lo hi (solveCubic a b c d lo hi) := by
  have ha0 : a ≠ 0 := by rintro rfl; rw [abs_zero] at ha; linarith [eps_pos]
  have hep := eps_pos
  unfold solveCubic
  rw [if_neg (not_lt.2 ha)]
  simp only []
  change Finds (cub a b c d) lo hi (sort (if eps < disc a b c d then _ else if disc a b c d < -eps then
    match singleRoot (depA a b c) (depB a b c d) with | none => [] | some u => _ else
    if |depB a b c d| < eps then _ else _))
  apply finds_sort
  have hsub : ∀ t u : ℝ, t + b / a / 3 = u ↔ t = u + -(b / a) / 3 := by
    intro t u; constructor <;> intro h <;> linarith
  rcases hd with hd | ⟨hd, hB⟩
  · rw [if_pos hd]
    refine part_congr (part_push hl (part_push hl (part_push hl (part_nil lo hi) _) _) _) fun t => ?_
    rw [cub_depressed ha0, trig_roots (lt_trans hep hd)]
    simp only [false_or, hsub]
    rw [or_assoc]
    rfl
  · rw [if_neg (by linarith), if_neg (by linarith)]
    rcases hB with hB | hB
    · rw [if_pos (by rw [hB, abs_zero]; exact hep)]
      refine part_congr (part_push hl (part_nil lo hi) _) fun t => ?_
      rw [cub_depressed ha0, hB, triple_root (by have := hd; unfold disc at this; rw [hB] at this; linarith)]
      simp only [false_or]
      rw [hsub, zero_add]
    · rw [if_neg (not_lt.2 hB)]
      have hB0 : depB a b c d ≠ 0 := by intro h; rw [h, abs_zero] at hB; linarith
      refine part_congr (part_pushDistinct hl (part_push hl (part_nil lo hi) _) _) fun t => ?_
      rw [cub_depressed ha0, double_roots hB0 hd]
      simp only [false_or, hsub]
      rfl

/-! ### the single-root branch -/

/-- A cubic without local extrema whose discriminant is below the threshold: no crossing is ever reported. -/
theorem solveCubic_monotone_none {a b c d lo hi : ℝ} (ha : eps ≤ |a|) (hA : 0 ≤ depA a b c) (hd : disc a b c d < -eps) :
    solveCubic a b c d lo hi = [] := by
  have hep := eps_pos
  unfold solveCubic
  rw [if_neg (not_lt.2 ha)]
  simp only []
  change sort (if eps < disc a b c d then _ else if disc a b c d < -eps then
    match singleRoot (depA a b c) (depB a b c d) with | none => [] | some u => _ else
    if |depB a b c d| < eps then _ else _) = []
  rw [if_neg (by linarith), if_pos hd]
  have : singleRoot (depA a b c) (depB a b c d) = none := by
    unfold singleRoot sqrt?
    by_cases h : -depA a b c / 3 < 0
    · rw [if_pos h]
    · have h0 : depA a b c = 0 := by linarith
      rw [if_neg h]; simp [h0]
  rw [this]; rfl

/-- With local extrema and one real root, the value computed is `-2 B` off: it is never a root. -/
theorem singleRoot_residual {A B : ℝ} (hA : A < 0) (hd : -4 * A * A * A - 27 * B * B < 0) :
    ∃ u, singleRoot A B = some u ∧ u ^ 3 + A * u + B = -2 * B ∧ B ≠ 0 := by
  have hs : 0 < Real.sqrt (-A / 3) := Real.sqrt_pos.2 (by linarith)
  have hmm := Real.mul_self_sqrt (by linarith : 0 ≤ -A / 3)
  have hB : B ≠ 0 := by
    rintro rfl
    have : 0 < -A := by linarith
    nlinarith [mul_pos (mul_pos this this) this]
  unfold singleRoot sqrt?
  rw [if_neg (by linarith)]
  simp only []
  rw [if_neg hs.ne', if_pos hA]
  set s := Real.sqrt (-A / 3)
  have hAs : A = -3 * s ^ 2 := by rw [pow_two]; linarith
  set w := |B| / (s * s * s) * (3 / 2) with hw
  have hs3 : 0 < s * s * s := by positivity
  have hws : w * (s * s * s) = 3 / 2 * |B| := by rw [hw]; field_simp
  have hw1 : 1 ≤ w := by
    by_contra hc
    push Not at hc
    have hb : |B| < s * s * s := by nlinarith
    have hb2 : B * B < (s * s * s) * (s * s * s) := by
      rw [← abs_mul_abs_self B]; nlinarith [abs_nonneg B]
    rw [hAs] at hd
    nlinarith
  refine ⟨_, rfl, ?_, hB⟩
  have hcosh : Real.cosh (3 * (Real.log (w + Real.sqrt (w * w - 1)) / 3)) = w := by
    rw [show 3 * (Real.log (w + Real.sqrt (w * w - 1)) / 3) = Real.log (w + Real.sqrt (w * w - 1)) by ring]
    have h0 : 0 ≤ w * w - 1 := by nlinarith
    have hq := Real.mul_self_sqrt h0
    have hqn := Real.sqrt_nonneg (w * w - 1)
    set q := Real.sqrt (w * w - 1)
    have hp : 0 < w + q := by linarith
    rw [Real.cosh_eq, Real.exp_neg, Real.exp_log hp]
    have : (w + q)⁻¹ = w - q := by
      rw [inv_eq_iff_eq_inv, eq_comm, inv_eq_iff_eq_inv, eq_comm]
      apply inv_eq_of_mul_eq_one_left
      linarith
    rw [this]; ring
  rw [Real.cosh_three_mul] at hcosh
  set x := Real.cosh (Real.log (w + Real.sqrt (w * w - 1)) / 3)
  unfold copysign
  split_ifs with hneg
  · rw [abs_of_neg hneg] at hws
    rw [hAs]; linear_combination (2 * s ^ 3) * hcosh + 2 * hws
  · rw [abs_of_nonneg (not_lt.1 hneg)] at hws
    rw [hAs]; linear_combination (-2 * s ^ 3) * hcosh - 2 * hws

end
end Huira.Arc
