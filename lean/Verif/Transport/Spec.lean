import Verif.Transport.Model
/-!
# Light transport (specification)

The light a ray carries, as the sum over light paths of bounded length, written without reference to the path tracer.
-/
namespace Huira.Transport

noncomputable section
open Classical

variable {Ray Dir Chan L : Type} [Fintype Dir]

/-- The part of the light a surface of this opacity takes part in. -/
def cover (opacity : ℝ) : ℝ := max 0 (min 1 opacity)

/-- Compositing along a ray: each surface shows `stop` in proportion to its opacity, the rest shows what is behind. -/
def along {β : Type} (opacity : β → ℝ) (stop : β → ℝ) (behind : ℝ) : List β → ℝ
  | [] => behind
  | v :: vs => cover (opacity v) * stop v + (1 - cover (opacity v)) * along opacity stop behind vs

/-- Reflected part of the light from direction `d`: reflectance times cosine. -/
def Bsdf.fcos (m : Bsdf Dir Chan) (d : Dir) (c : Chan) : ℝ := m.eval d c * m.cosine d

/-- Radiance of what ends a ray. -/
def End.radiance (e : End Chan L) (c : Chan) : ℝ :=
  match e with
  | .background r => r c
  | .light _ r => r c

/-- The same for lights only. -/
def End.lightRadiance (e : End Chan L) (c : Chan) : ℝ :=
  match e with
  | .background _ => 0
  | .light _ r => r c

/-- Path regularisation: a surface counts as at least as rough as the ones before it on the path. -/
def atLeast (prev : Option ℝ) (own : ℝ) : ℝ :=
  match prev with
  | none => own
  | some r => max own r

/-- **Light carried along a ray by paths of at most `n` segments.** -/
def radiance (S : Scene Ray Dir Chan L) : ℕ → Option ℝ → Ray → Chan → ℝ
  | 0, _, _, _ => 0
  | n + 1, prev, ray, c =>
    along Vertex.opacity
      (fun v => ∑ d, (v.bsdf (atLeast prev v.roughness)).fcos d c *
        radiance S n (some (atLeast prev v.roughness)) (S.next v d) c)
      ((S.world ray).2.radiance c) (S.world ray).1

/-- Light of the lamps that reaches the start of a ray directly. -/
def lamp (S : Scene Ray Dir Chan L) (ray : Ray) (c : Chan) : ℝ :=
  along Vertex.opacity (fun _ => 0) ((S.world ray).2.lightRadiance c) (S.world ray).1

/-- The scene and the sampling routines fit together:
* `bsdf_sample` chooses directions with the density it reports, which is `bsdf_pdf`, its value is reflectance times cosine
  over density, nothing is a mirror, and nothing is reflected below the surface;
* `sample_li` chooses directions with the density it reports, which is `pdf_li`;
* a light sample sees in a direction what a ray sent in that direction sees: the radiance of the one light there, dimmed
  by the same surfaces, and no other light.  -/
structure Sound (S : Scene Ray Dir Chan L) : Prop where
  nodup : S.lights.Nodup
  prob : ∀ ray, ∀ v ∈ (S.world ray).1, ∀ r d, (v.bsdf r).prob d = (v.bsdf r).pdf d
  evalPdf : ∀ ray, ∀ v ∈ (S.world ray).1, ∀ r d, (v.bsdf r).evalPdf d = (v.bsdf r).pdf d
  value : ∀ ray, ∀ v ∈ (S.world ray).1, ∀ r d c, (v.bsdf r).pdf d * (v.bsdf r).value d c = (v.bsdf r).fcos d c
  value_nonneg : ∀ ray, ∀ v ∈ (S.world ray).1, ∀ r d c, 0 ≤ (v.bsdf r).value d c
  rough : ∀ ray, ∀ v ∈ (S.world ray).1, ∀ r d, (v.bsdf r).delta d = false
  below : ∀ ray, ∀ v ∈ (S.world ray).1, ∀ r d c, v.below d = true → (v.bsdf r).fcos d c = 0
  lightProb : ∀ ray, ∀ v ∈ (S.world ray).1, ∀ l ∈ S.lights, ∀ d, v.lightProb l d = v.lightPdf l d
  pdfLi : ∀ ray, ∀ v ∈ (S.world ray).1, ∀ l ∈ S.lights, ∀ d, v.pdfLi l d = v.lightPdf l d
  dark : ∀ ray, ∀ v ∈ (S.world ray).1, ∀ d r, (S.world (S.next v d)).2 = .background r → ∀ l ∈ S.lights, v.li l d = 0
  lit : ∀ ray, ∀ v ∈ (S.world ray).1, ∀ d l r, (S.world (S.next v d)).2 = .light l r →
    l ∈ S.lights ∧ v.li l d = r ∧ v.shadow l d = (S.world (S.next v d)).1.map Vertex.opacity ∧ 0 < v.lightPdf l d ∧
    ∀ l' ∈ S.lights, l' ≠ l → v.li l' d = 0

/-- Light paths of `n + 1` segments that end on a lamp, weighted at their last vertex by `w`. -/
def lampTail (S : Scene Ray Dir Chan L) (w : Vertex Dir Chan L → ℝ → L → Dir → ℝ) : ℕ → Option ℝ → Ray → Chan → ℝ
  | 0, _, _, _ => 0
  | 1, prev, ray, c =>
    along Vertex.opacity
      (fun v => ∑ d, (v.bsdf (atLeast prev v.roughness)).fcos d c *
        (match (S.world (S.next v d)).2 with
          | .background _ => 0
          | .light l _ => w v (atLeast prev v.roughness) l d * lamp S (S.next v d) c)) 0 (S.world ray).1
  | n + 2, prev, ray, c =>
    along Vertex.opacity
      (fun v => ∑ d, (v.bsdf (atLeast prev v.roughness)).fcos d c *
        lampTail S w (n + 1) (some (atLeast prev v.roughness)) (S.next v d) c) 0 (S.world ray).1

/-- The weight of the power heuristic for a light sample. -/
def lightWeight (v : Vertex Dir Chan L) (r : ℝ) (l : L) (d : Dir) : ℝ := power (v.lightPdf l d) ((v.bsdf r).pdf d)

end

end Huira.Transport
