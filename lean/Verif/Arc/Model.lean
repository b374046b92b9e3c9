import Verif.Num.Vec3
import Mathlib.Analysis.SpecialFunctions.Trigonometric.Inverse
import Mathlib.Analysis.SpecialFunctions.Arcosh
import Mathlib.Analysis.SpecialFunctions.Arsinh
/-!
# Trajectory arcs (model)

Models `include/huira_impl/render/trajectory_arc.ipp` 10-392.

Simplifications: exact real arithmetic (`float` in the code); the sample vector is a function `ℕ → V3` together with
its length; `√` of a negative number and what is computed from it (NaN) is `none`.
-/
namespace Huira.Arc
noncomputable section
open Classical

/-! ### Natural cubic spline of one component (lines 94-165) -/

/-- `knots_[i]` (line 114): `i / num_segments`. -/
def knot (n : ℕ) (i : ℕ) : ℝ := (i : ℝ) / ((n - 1 : ℕ) : ℝ)

/-- `h = knots_[1] - knots_[0]` (line 117). -/
def step (n : ℕ) : ℝ := knot n 1 - knot n 0

/-- `rhs[i]` before elimination (lines 133-136). -/
def rhs0 (h : ℝ) (y : ℕ → ℝ) (i : ℕ) : ℝ := (6 / h) * (y (i + 2) - 2 * y (i + 1) + y i)

/-- `diag[i]` after forward elimination (lines 138-143). -/
def diag (h : ℝ) : ℕ → ℝ
  | 0 => 4 * h
  | i + 1 => 4 * h - h / diag h i * h

/-- `rhs[i]` after forward elimination (lines 141-145). -/
def rhs (h : ℝ) (y : ℕ → ℝ) : ℕ → ℝ
  | 0 => rhs0 h y 0
  | i + 1 => rhs0 h y (i + 1) - h / diag h i * rhs h y i

/-- Back substitution (lines 147-151), counted from the end: `back k j` is `interior_M[k - 1 - j]`. -/
def back (h : ℝ) (y : ℕ → ℝ) (k : ℕ) : ℕ → ℝ
  | 0 => rhs h y (k - 1) / diag h (k - 1)
  | j + 1 => (rhs h y (k - 2 - j) - h * back h y k j) / diag h (k - 2 - j)

/-- `M[i]` (lines 128-156): zero at both ends. -/
def secondDeriv (n : ℕ) (y : ℕ → ℝ) (i : ℕ) : ℝ :=
  if 1 ≤ i ∧ i ≤ n - 2 then back (step n) y (n - 2) (n - 2 - i) else 0

/-- One segment `a + b u + c u² + d u³`. -/
structure Seg where
  a : ℝ
  b : ℝ
  c : ℝ
  d : ℝ

/-- `segments_[i]` for one component (lines 158-163). -/
def seg (n : ℕ) (y : ℕ → ℝ) (i : ℕ) : Seg :=
  let h := step n
  let M := secondDeriv n y
  ⟨y i, (y (i + 1) - y i) / h - h * (2 * M i + M (i + 1)) / 6, M i / 2, (M (i + 1) - M i) / (6 * h)⟩

/-- `s.a + u * (s.b + u * (s.c + u * s.d))` (line 193). -/
def Seg.ev (s : Seg) (u : ℝ) : ℝ := s.a + u * (s.b + u * (s.c + u * s.d))

/-- `std::clamp(t, 0, 1)` -/
def clamp01 (t : ℝ) : ℝ := if t < 0 then 0 else if 1 < t then 1 else t

/-- The segment search loop with its `break` (lines 181-188): at most `fuel` iterations from segment `s`. -/
def findSeg (n : ℕ) (t : ℝ) : ℕ → ℕ → ℕ
  | 0, s => s
  | fuel + 1, s => if knot n (s + 1) ≤ t then findSeg n t fuel (s + 1) else s

/-- The segment used for parameter `t` (lines 181-189). -/
def segIndex (n : ℕ) (t : ℝ) : ℕ := min (findSeg n t (n - 2) 0) (n - 2)

/-- `evaluate_spline_` (lines 177-194), one component. -/
def evalSpline (n : ℕ) (y : ℕ → ℝ) (t : ℝ) : ℝ :=
  let t := clamp01 t
  let s := segIndex n t
  (seg n y s).ev (t - knot n s)

/-! ### Polynomial arcs (lines 71-92, 167-175) -/

/-- `build_polynomial_` (lines 71-92). -/
def polyCoeffs (n : ℕ) (p : ℕ → V3) : List V3 :=
  if n = 1 then [p 0]
  else if n = 2 then [p 0, p 1 - p 0]
  else [p 0, (-3 : ℝ) * p 0 + (4 : ℝ) * p 1 - p 2, (2 : ℝ) * p 0 - (4 : ℝ) * p 1 + (2 : ℝ) * p 2]

/-- Horner's scheme (lines 167-175). -/
def horner (t : ℝ) : List V3 → V3
  | [] => V3.zero
  | [c] => c
  | c :: cs => t * horner t cs + c

/-- `TrajectoryArc`: number of samples and samples. -/
structure TArc where
  n : ℕ
  p : ℕ → V3

/-- The constructor (lines 18-31): throws without samples. -/
def mk? (samples : List V3) : Option TArc :=
  if samples.length < 1 then none else some ⟨samples.length, fun i => samples.getD i V3.zero⟩

/-- `evaluate` (lines 39-45). -/
def evaluate (a : TArc) (t : ℝ) : V3 :=
  if a.n ≤ 3 then horner t (polyCoeffs a.n a.p)
  else ⟨evalSpline a.n (fun i => (a.p i).x) t, evalSpline a.n (fun i => (a.p i).y) t,
        evalSpline a.n (fun i => (a.p i).z) t⟩

/-! ### Root finding (lines 250-390) -/

/-- `1e-10f` -/
def eps : ℝ := 1 / 10000000000

/-- `std::clamp(t, lo, hi)` -/
def clamp (t lo hi : ℝ) : ℝ := if t < lo then lo else if hi < t then hi else t

/-- `t >= t_min - eps && t <= t_max + eps` -/
def inRange (t lo hi : ℝ) : Prop := lo - eps ≤ t ∧ t ≤ hi + eps

/-- `solve_linear_` (lines 254-265) -/
def solveLinear (a b lo hi : ℝ) : List ℝ :=
  if |a| < eps then []
  else if inRange (-b / a) lo hi then [clamp (-b / a) lo hi] else []

/-- `std::copysign(m, b)` for `m ≥ 0`; a zero `b` is taken with positive sign. -/
def copysign (m b : ℝ) : ℝ := if b < 0 then -m else m

/-- `if in range: if roots.empty() || |t - roots.back()| > eps: push clamp(t)` (lines 300-304, 380-384) -/
def pushDistinct (roots : List ℝ) (t lo hi : ℝ) : List ℝ :=
  if inRange t lo hi then
    match roots.getLast? with
    | none => roots ++ [clamp t lo hi]
    | some r => if eps < |t - r| then roots ++ [clamp t lo hi] else roots
  else roots

/-- `if in range: push clamp(t)` -/
def push (roots : List ℝ) (t lo hi : ℝ) : List ℝ := if inRange t lo hi then roots ++ [clamp t lo hi] else roots

/-- `solve_quadratic_` (lines 267-307) -/
def solveQuadratic (a b c lo hi : ℝ) : List ℝ :=
  if |a| < eps then solveLinear b c lo hi
  else
    let disc := b * b - 4 * a * c
    if disc < 0 then []
    else if disc < eps then push [] (-b / (2 * a)) lo hi
    else
      let q := -(1 / 2) * (b + copysign (Real.sqrt disc) b)
      let r1 := q / a
      let r2 := c / q
      let t1 := if r2 < r1 then r2 else r1
      let t2 := if r2 < r1 then r1 else r2
      pushDistinct (push [] t1 lo hi) t2 lo hi

/-- `std::sqrt`: NaN (`none`) for negative arguments. -/
def sqrt? (x : ℝ) : Option ℝ := if x < 0 then none else some (Real.sqrt x)

/-- The single-root branch (lines 347-359). A NaN, and the `0 * inf` produced by `A = 0` (where `sqrtQ3 = 0` makes
`cosh_val` infinite), is `none`. -/
def singleRoot (A Bc : ℝ) : Option ℝ :=
  match sqrt? (-A / 3) with
  | none => none
  | some s =>
    if s = 0 then none
    else
      let coshVal := |Bc| / (s * s * s) * (3 / 2)
      if A < 0 then some (-2 * copysign s Bc * Real.cosh (Real.log (coshVal + Real.sqrt (coshVal * coshVal - 1)) / 3))
      else some (-2 * copysign (Real.sqrt (A / 3)) Bc * Real.sinh (Real.log (coshVal + Real.sqrt (coshVal * coshVal + 1)) / 3))

/-- `std::sort` on the at most three roots (insertion of each root into a sorted list). -/
def insertSorted (x : ℝ) : List ℝ → List ℝ
  | [] => [x]
  | y :: l => if x ≤ y then x :: y :: l else y :: insertSorted x l

def sort (l : List ℝ) : List ℝ := l.foldr insertSorted []

/-- `solve_cubic_` (lines 314-390) -/
def solveCubic (a b c d lo hi : ℝ) : List ℝ :=
  if |a| < eps then solveQuadratic b c d lo hi
  else
    let p := b / a
    let q := c / a
    let r := d / a
    let p2 := p * p
    let A := q - p2 / 3
    let Bc := r - p * q / 3 + 2 * p2 * p / 27
    let disc := -4 * A * A * A - 27 * Bc * Bc
    let offset := -p / 3
    sort (
      if eps < disc then
        let m := 2 * Real.sqrt (-A / 3)
        let theta := Real.arccos (3 * Bc / (A * m)) / 3
        let u := fun k : ℝ => m * Real.cos (theta - 2 * Real.pi * k / 3)
        push (push (push [] (u 0 + offset) lo hi) (u 1 + offset) lo hi) (u 2 + offset) lo hi
      else if disc < -eps then
        match singleRoot A Bc with
        | none => []
        | some u => push [] (u + offset) lo hi
      else if |Bc| < eps then push [] offset lo hi
      else
        let u1 := 3 * Bc / A
        let u2 := -u1 / 2
        pushDistinct (push [] (u1 + offset) lo hi) (u2 + offset) lo hi)

/-! ### Plane crossings (lines 47-62, 196-248) -/

/-- `find_crossings_polynomial_` (lines 201-216). -/
def crossingsPoly (cs : List V3) (nrm : V3) : List ℝ :=
  match cs with
  | [c0, c1] => solveLinear (V3.dot nrm c1) (V3.dot nrm c0) 0 1
  | [c0, c1, c2] => solveQuadratic (V3.dot nrm c2) (V3.dot nrm c1) (V3.dot nrm c0) 0 1
  | _ => []

/-- `normal · s.a` etc. for segment `i` (lines 231-234). -/
def dotSeg (a : TArc) (nrm : V3) (i : ℕ) : Seg :=
  let sx := seg a.n (fun j => (a.p j).x) i
  let sy := seg a.n (fun j => (a.p j).y) i
  let sz := seg a.n (fun j => (a.p j).z) i
  ⟨V3.dot nrm ⟨sx.a, sy.a, sz.a⟩, V3.dot nrm ⟨sx.b, sy.b, sz.b⟩, V3.dot nrm ⟨sx.c, sy.c, sz.c⟩,
   V3.dot nrm ⟨sx.d, sy.d, sz.d⟩⟩

/-- Appending the roots of one segment, dropping those within `1e-6` of the last one (lines 238-243). -/
def appendRoots (acc : List ℝ) (k : ℝ) (roots : List ℝ) : List ℝ :=
  roots.foldl (fun acc u =>
    match acc.getLast? with
    | none => acc ++ [k + u]
    | some r => if 1 / 1000000 < |k + u - r| then acc ++ [k + u] else acc) acc

/-- `find_crossings_spline_` (lines 223-248). -/
def crossingsSpline (a : TArc) (nrm : V3) : List ℝ :=
  sort ((List.range (a.n - 1)).foldl (fun acc i =>
    let s := dotSeg a nrm i
    appendRoots acc (knot a.n i) (solveCubic s.d s.c s.b s.a 0 (knot a.n (i + 1) - knot a.n i))) [])

/-- `find_plane_crossings` (lines 56-62). -/
def planeCrossings (a : TArc) (nrm : V3) : List ℝ :=
  if a.n ≤ 3 then crossingsPoly (polyCoeffs a.n a.p) nrm else crossingsSpline a nrm

end
end Huira.Arc
