import Mathlib.Data.Real.Basic
import Mathlib.Data.Fintype.BigOperators
import Mathlib.Algebra.BigOperators.Group.Finset.Basic
import Mathlib.Data.Finset.Max
import Mathlib.Data.Finset.Lattice.Fold
/-!
# The path-tracing loop as a probabilistic program (model)

Models `include/huira_impl/render/renderer.ipp` 184-480: the loop over the bounces of one camera sample (surfaces, partly
transparent layers, lights, background, next-event estimation, multiple importance sampling, Russian roulette, path
regularisation), and `include/huira_impl/scene/scene_view.ipp` 221-291 (`evaluate_transmittance`) as far as it serves it.

Conventions and simplifications
* Random numbers are draws of a probabilistic program (`Prog`): a coin for `sampler.get_1d() > p`, a choice of a direction
  for `bsdf_sample` and `sample_li`.  Directions form a finite set, densities are probabilities of its elements; values
  are exact reals per channel.
* A ray meets a list of surfaces in order and then a light or the background (`world`); a partly transparent surface that
  is passed lets the ray go on in the same direction, so the rest of the list stays valid.
* No participating media (the medium part is modelled for C33, C34, C72, C78), so the medium stack stays empty; surfaces
  do not transmit (`params.transmission` is 0); sampling times are fixed.
* `power_heuristic` without its branch for infinite densities.  Clamping of indirect light and the statistics of the
  samples are modelled for C54, C79 and C80.
-/
namespace Huira.Transport

noncomputable section
open Classical

/-- A program that draws random numbers. -/
inductive Prog (Dir : Type) (α : Type) : Type where
  | ret (a : α)
  /-- `sampler.get_1d() <= p` (true with probability `p`) -/
  | coin (p : ℝ) (k : Bool → Prog Dir α)
  /-- direction `d` with probability `p d`, no valid sample otherwise -/
  | pick (p : Dir → ℝ) (k : Option Dir → Prog Dir α)

/-- Sequential composition. -/
def Prog.bind {Dir α β : Type} : Prog Dir α → (α → Prog Dir β) → Prog Dir β
  | .ret a, f => f a
  | .coin p k, f => .coin p (fun b => (k b).bind f)
  | .pick p k, f => .pick p (fun o => (k o).bind f)

/-- Expected value of a quantity of the result. -/
def Prog.mean {Dir α : Type} [Fintype Dir] : Prog Dir α → (α → ℝ) → ℝ
  | .ret a, g => g a
  | .coin p k, g => p * (k true).mean g + (1 - p) * (k false).mean g
  | .pick p k, g => ∑ d, p d * (k (some d)).mean g + (1 - ∑ d, p d) * (k none).mean g

/-- A reflectance model at a point for one outgoing direction: `bsdf_eval`, the cosine of renderer.ipp 424-425,
`bsdf_pdf`, and `bsdf_sample` (probability of each direction, and the returned `value`, `pdf` and `is_delta`). -/
structure Bsdf (Dir Chan : Type) where
  eval : Dir → Chan → ℝ
  cosine : Dir → ℝ
  evalPdf : Dir → ℝ
  prob : Dir → ℝ
  value : Dir → Chan → ℝ
  pdf : Dir → ℝ
  delta : Dir → Bool

/-- A point where a ray meets a surface (the `Interaction` with its evaluated material). -/
structure Vertex (Dir Chan L : Type) where
  opacity : ℝ
  roughness : ℝ
  /-- the reflectance model for a given roughness -/
  bsdf : ℝ → Bsdf Dir Chan
  /-- `light->sample_li(isect, …)`: probability of each direction, returned density and radiance -/
  lightProb : L → Dir → ℝ
  lightPdf : L → Dir → ℝ
  li : L → Dir → Chan → ℝ
  /-- opacities of the surfaces between the point and the light (`evaluate_transmittance`) -/
  shadow : L → Dir → List ℝ
  /-- `dot(ls.wi, isect.normal_g) <= 0` -/
  below : Dir → Bool
  /-- `light->pdf_li(isect, …)` -/
  pdfLi : L → Dir → ℝ

/-- What ends a ray. -/
inductive End (Chan L : Type) where
  | background (radiance : Chan → ℝ)
  | light (l : L) (radiance : Chan → ℝ)

structure Scene (Ray Dir Chan L : Type) where
  world : Ray → List (Vertex Dir Chan L) × End Chan L
  /-- the ray spawned at a vertex in a sampled direction -/
  next : Vertex Dir Chan L → Dir → Ray
  lights : List L

/-- The variables of the loop over the bounces (renderer.ipp 190-200); `prev` holds `prev_isect`, `prev_bsdf_pdf` and
the direction of the present ray. -/
structure St (Ray Dir Chan L : Type) where
  ray : Ray
  throughput : Chan → ℝ
  direct : Chan → ℝ
  indirect : Chan → ℝ
  roughness : ℝ
  prev : Option (Vertex Dir Chan L × ℝ × Dir)

variable {Ray Dir Chan L : Type}

/-- `if (bounce == 0) direct_radiance += x; else indirect_radiance += x;` -/
def St.add (b : ℕ) (s : St Ray Dir Chan L) (x : Chan → ℝ) : St Ray Dir Chan L :=
  if b = 0 then { s with direct := fun c => s.direct c + x c } else { s with indirect := fun c => s.indirect c + x c }

/-- `power_heuristic` (renderer.ipp 64-72) -/
def power (f g : ℝ) : ℝ := f * f / (f * f + g * g)

/-- Weight of a light that ends the present ray (renderer.ipp 316-327). -/
def weightOf (b : ℕ) (s : St Ray Dir Chan L) (l : L) : ℝ :=
  if b > 0 then (match s.prev with
    | none => 0
    | some (v, pdf, d) => power pdf (v.pdfLi l d)) else 1

/-- The branch for a ray that leaves the scene (renderer.ipp 287-303) or hits a light (renderer.ipp 307-338). -/
def endPath (b : ℕ) (s : St Ray Dir Chan L) : End Chan L → St Ray Dir Chan L
  | .background e => s.add b (fun c => s.throughput c * e c)
  | .light l e => s.add b (fun c => s.throughput c * e c * weightOf b s l)

/-- Passing the surfaces of a list one after the other (renderer.ipp 354-371 and scene_view.ipp 257-270): at a partly
transparent surface the ray stops with probability `opacity`. -/
def walk {α β : Type} (opacity : β → ℝ) (stop : β → Prog Dir α) (through : Prog Dir α) : List β → Prog Dir α
  | [] => through
  | v :: vs =>
    if opacity v < 1 then
      .coin (max 0 (opacity v)) (fun b => if b then stop v else walk opacity stop through vs)
    else stop v

/-- `evaluate_transmittance` on opaque or partly transparent surfaces (scene_view.ipp 233-275): 1 or 0. -/
def shadowRay (os : List ℝ) : Prog Dir Bool := walk id (fun _ => .ret false) (.ret true) os

/-- One light sample of the direct-lighting loop (renderer.ipp 396-445). -/
def lightSample (b : ℕ) (v : Vertex Dir Chan L) (m : Bsdf Dir Chan) (l : L) (s : St Ray Dir Chan L) :
    Option Dir → Prog Dir (St Ray Dir Chan L)
  | none => .ret s
  | some d =>
    if v.below d then .ret s
    else (shadowRay (v.shadow l d)).bind fun visible =>
      if visible then
        .ret (s.add b fun c => s.throughput c * (v.li l d c / v.lightPdf l d) * m.eval d c * m.cosine d *
          power (v.lightPdf l d) (m.evalPdf d))
      else .ret s

/-- The direct-lighting loop (renderer.ipp 391-445). -/
def directLight (b : ℕ) (v : Vertex Dir Chan L) (m : Bsdf Dir Chan) :
    List L → St Ray Dir Chan L → Prog Dir (St Ray Dir Chan L)
  | [], s => .ret s
  | l :: ls, s => (Prog.pick (v.lightProb l) (lightSample b v m l s)).bind (directLight b v m ls)

variable [Fintype Chan] [Nonempty Chan]

/-- `throughput.max()` -/
def maxChan (x : Chan → ℝ) : ℝ := Finset.univ.sup' Finset.univ_nonempty x

/-- Russian roulette (renderer.ipp 464-471). -/
def roulette (b : ℕ) (s : St Ray Dir Chan L) (go : St Ray Dir Chan L → Prog Dir (St Ray Dir Chan L)) :
    Prog Dir (St Ray Dir Chan L) :=
  if b ≥ 3 then
    let p := min 0.95 (maxChan s.throughput)
    .coin p (fun u => if u then go { s with throughput := fun c => s.throughput c / p } else .ret s)
  else go s

/-- The roughness used at a vertex (renderer.ipp 373-378). -/
def regular (b : ℕ) (prev own : ℝ) : ℝ := if b > 0 then max own prev else own

/-- After `bsdf_sample` (renderer.ipp 450-480). -/
def scatter (S : Scene Ray Dir Chan L) (b : ℕ) (v : Vertex Dir Chan L) (m : Bsdf Dir Chan) (s : St Ray Dir Chan L)
    (go : St Ray Dir Chan L → Prog Dir (St Ray Dir Chan L)) : Option Dir → Prog Dir (St Ray Dir Chan L)
  | none => .ret s
  | some d => roulette b
      { s with
        prev := some (v, if m.delta d then 0 else m.pdf d, d)
        throughput := fun c => s.throughput c * m.value d c
        ray := S.next v d } go

/-- What happens at a surface that stops the ray (renderer.ipp 373-480). -/
def shade (S : Scene Ray Dir Chan L) (b : ℕ) (s : St Ray Dir Chan L)
    (go : St Ray Dir Chan L → Prog Dir (St Ray Dir Chan L)) (v : Vertex Dir Chan L) : Prog Dir (St Ray Dir Chan L) :=
  let r := regular b s.roughness v.roughness
  let m := v.bsdf r
  (directLight b v m S.lights { s with roughness := r }).bind fun s' =>
    .pick m.prob (scatter S b v m s' go)

/-- The loop over the bounces (renderer.ipp 202-481); `n` bounces are left, `b` is the counter. -/
def loop (S : Scene Ray Dir Chan L) : ℕ → ℕ → St Ray Dir Chan L → Prog Dir (St Ray Dir Chan L)
  | 0, _, s => .ret s
  | n + 1, b, s =>
    walk Vertex.opacity (shade S b s (loop S n (b + 1))) (.ret (endPath b s (S.world s.ray).2)) (S.world s.ray).1

/-- One camera sample (renderer.ipp 184-481) with `max_bounces_ = n`. -/
def sample (S : Scene Ray Dir Chan L) (n : ℕ) (camera : Ray) : Prog Dir (St Ray Dir Chan L) :=
  loop S n 0 ⟨camera, fun _ => 1, fun _ => 0, fun _ => 0, 0, none⟩

end

end Huira.Transport
