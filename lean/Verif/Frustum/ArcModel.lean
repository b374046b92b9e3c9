import Verif.Arc.Model
/-!
# Visible intervals of a trajectory (model)

Models `include/huira_impl/render/frustum.ipp` 93-119 and 193-265. Exact real arithmetic; the frustum is the list of its
plane normals (all planes pass through the origin).
-/
namespace Huira.ArcClip
noncomputable section
open Classical

/-- `eps` of `arc_intervals_inside_plane_` (line 203). -/
def eps6 : ℝ := 1 / 1000000

/-- `boundaries` (lines 208-216). -/
def boundaries (crossings : List ℝ) : List ℝ :=
  0 :: (crossings.filter (fun t => decide (eps6 < t ∧ t < 1 - eps6)) ++ [1])

/-- Adding the accepted interval `(b, b')`: merged with the last one if that ends within `eps` of `b`
(lines 224-229). -/
def addInterval (acc : List (ℝ × ℝ)) (b b' : ℝ) : List (ℝ × ℝ) :=
  match acc.getLast? with
  | none => acc ++ [(b, b')]
  | some p => if |p.2 - b| < eps6 then acc.dropLast ++ [(p.1, b')] else acc ++ [(b, b')]

/-- The loop over consecutive boundaries (lines 219-231); `g t` is `dot(normal, arc.evaluate(t))`. -/
def scan (g : ℝ → ℝ) : List ℝ → List (ℝ × ℝ) → List (ℝ × ℝ)
  | b :: b' :: rest, acc => scan g (b' :: rest) (if 0 ≤ g ((b + b') / 2) then addInterval acc b b' else acc)
  | _, acc => acc

/-- `arc_intervals_inside_plane_` (lines 199-234). -/
def planeIntervals (a : Arc.TArc) (nrm : V3) : List (ℝ × ℝ) :=
  scan (fun t => V3.dot nrm (Arc.evaluate a t)) (boundaries (Arc.planeCrossings a nrm)) []

/-- `intersect_intervals_` (lines 241-265): the two-pointer sweep. -/
def intersect : List (ℝ × ℝ) → List (ℝ × ℝ) → List (ℝ × ℝ)
  | [], _ => []
  | _ :: _, [] => []
  | x :: a, y :: b =>
    (if max x.1 y.1 < min x.2 y.2 then [(max x.1 y.1, min x.2 y.2)] else []) ++
      (if x.2 < y.2 then intersect a (y :: b) else intersect (x :: a) b)
termination_by a b => a.length + b.length

/-- The loop of `clip_arc` with its early return (lines 107-118). -/
def clipLoop (a : Arc.TArc) : List V3 → List (ℝ × ℝ) → List (ℝ × ℝ)
  | [], r => r
  | n :: ns, r =>
    let r' := intersect r (planeIntervals a n)
    if r' = [] then [] else clipLoop a ns r'

/-- `clip_arc` (lines 100-119). -/
def clipArc (normals : List V3) (a : Arc.TArc) : List (ℝ × ℝ) :=
  if normals = [] then [(0, 1)] else clipLoop a normals [(0, 1)]

end
end Huira.ArcClip
