import Verif.Materials.SamplingModel
import Mathlib.Analysis.SpecialFunctions.Exp
import Mathlib.Analysis.SpecialFunctions.Trigonometric.Inverse

/-!
# Model of the reflectance models

Models `include/huira_impl/materials/bsdfs/*.ipp`.  A spectral value is a function of the bin index; `float` is the reals.
-/

namespace Huira.Bsdf

noncomputable section
open Real Classical Huira.Sampling

/-- `struct ShadingParams` (`shading_params.hpp` 19-37), the fields read by the reflectance models. -/
structure Params (n : ℕ) where
  albedo : Fin n → ℝ
  roughness : ℝ
  metallic : ℝ

/-- The part of `struct Interaction` (`interaction.hpp` 18-32) the models read. -/
structure Frame where
  t : V3
  b : V3
  n : V3

/-- `struct BSDFSample` (`bsdf.hpp` 28-36). -/
structure BSample (n : ℕ) where
  wi : V3
  value : Fin n → ℝ
  pdf : ℝ
  isDelta : Bool := false

/-- `is_valid` (`bsdf.hpp` 35). -/
def BSample.isValid {n : ℕ} (s : BSample n) : Prop := s.pdf > 0

/-- The reflectance models (`include/huira/materials/bsdfs/`); Hapke carries its constants h, B0, b, c. -/
inductive Kind
  | lambertian | lommelSeeliger | mcEwen | orenNayar | cookTorrance | null
  | hapke (h B0 b c : ℝ)

variable {n : ℕ}

/-- `std::clamp`. -/
def clamp (x lo hi : ℝ) : ℝ := if x < lo then lo else if hi < x then hi else x

/-- `LambertianBSDF::eval` (`lambertian_bsdf.ipp` 16-29). -/
def lambertianEval (wo wi : V3) (f : Frame) (p : Params n) : Fin n → ℝ := fun i =>
  if V3.dot wi f.n ≤ 0 then 0 else p.albedo i * (1 / π)

/-- `LommelSeeligerBSDF::eval` (`lommel_seeliger_bsdf.ipp` 18-32). -/
def lommelEval (wo wi : V3) (f : Frame) (p : Params n) : Fin n → ℝ := fun i =>
  let ci := V3.dot wi f.n
  let co := V3.dot wo f.n
  if ci ≤ 0 ∨ co ≤ 0 then 0 else p.albedo i / (4 * π * (ci + co))

/-- `McEwenBSDF::eval` (`mcewen_bsdf.ipp` 19-45). -/
def mcEwenEval (wo wi : V3) (f : Frame) (p : Params n) : Fin n → ℝ := fun i =>
  let ci := V3.dot wi f.n
  let co := V3.dot wo f.n
  if ci ≤ 0 ∨ co ≤ 0 then 0 else
    let alpha := arccos (clamp (V3.dot wi wo) (-1) 1)
    let beta := exp (-alpha * (3 * (1 / π)))
    p.albedo i * ((1 - beta) * (1 / π) + beta * (1 / (4 * π * (ci + co))))

/-- `OrenNayarBSDF::eval` (`oren_nayar_bsdf.ipp` 19-50). -/
def orenEval (wo wi : V3) (f : Frame) (p : Params n) : Fin n → ℝ := fun i =>
  let ci := V3.dot wi f.n
  let co := V3.dot wo f.n
  if ci ≤ 0 ∨ co ≤ 0 then 0 else
    let sigma := p.roughness * (π / 2)
    let sigma2 := sigma * sigma
    let A := 1 - 0.5 * (sigma2 / (sigma2 + 0.33))
    let B := 0.45 * (sigma2 / (sigma2 + 0.09))
    let d := V3.dot wi wo - ci * co
    let maxCos := max ci co
    let term := if d > 0 ∧ maxCos > 1e-6 then d / maxCos else 0
    p.albedo i * (1 / π) * (A + B * term)

/-- The lambda `hg` (`hapke_bsdf.ipp` 24-28). -/
def hg (g cosA : ℝ) : ℝ := (1 - g * g) / (1 + g * g - 2 * g * cosA) ^ (1.5 : ℝ)
/-- `phase_function_dhg` (`hapke_bsdf.ipp` 20-31). -/
def dhg (b c cosA : ℝ) : ℝ := (1 - c) * hg (-b) cosA + c * hg b cosA
/-- `opposition_effect` (`hapke_bsdf.ipp` 33-42). -/
def opposition (h B0 tanHalf : ℝ) : ℝ := if h ≤ 0 then 0 else B0 / (1 + tanHalf / h)
/-- `h_function` (`hapke_bsdf.ipp` 44-52), one bin. -/
def hFunction (mu omega : ℝ) : ℝ := (1 + 2 * mu) / (1 + sqrt (1 - omega) * (2 * mu))

/-- `HapkeBSDF::eval` (`hapke_bsdf.ipp` 54-91). -/
def hapkeEval (h B0 b c : ℝ) (wo wi : V3) (f : Frame) (p : Params n) : Fin n → ℝ := fun i =>
  let ci := V3.dot wi f.n
  let co := V3.dot wo f.n
  if ci ≤ 0 ∨ co ≤ 0 then 0 else
    let omega := p.albedo i
    let cosA := clamp (V3.dot wi wo) (-1) 1
    let tanHalf := tan (arccos cosA * 0.5)
    let P := dhg b c cosA
    let B := opposition h B0 tanHalf
    (omega / (4 * π * (ci + co))) * (((1 + B) * P - 1) + hFunction ci omega * hFunction co omega)

/-- `ggx_D` (`cook_torrance_bsdf.ipp` 170-176). -/
def ggxD (nh alpha2 : ℝ) : ℝ :=
  let denom := nh * nh * (alpha2 - 1) + 1
  alpha2 / (π * denom * denom)
/-- `smith_G1` (`cook_torrance_bsdf.ipp` 178-184). -/
def smithG1 (nv alpha2 : ℝ) : ℝ :=
  let cos2 := nv * nv
  let tan2 := (1 - cos2) / max cos2 1e-8
  2 / (1 + sqrt (1 + alpha2 * tan2))
/-- `smith_G2` (`cook_torrance_bsdf.ipp` 186-190). -/
def smithG2 (no ni alpha2 : ℝ) : ℝ := smithG1 no alpha2 * smithG1 ni alpha2
/-- `schlick_fresnel` (`cook_torrance_bsdf.ipp` 192-200), one bin. -/
def schlick (cosT f0 : ℝ) : ℝ :=
  let t := 1 - cosT
  let t2 := t * t
  f0 + (1 - f0) * (t2 * t2 * t)

/-- `CookTorranceBSDF::eval` (`cook_torrance_bsdf.ipp` 19-55). -/
def cookEval (wo wi : V3) (f : Frame) (p : Params n) : Fin n → ℝ := fun i =>
  let no := V3.dot f.n wo
  let ni := V3.dot f.n wi
  if no ≤ 0 ∨ ni ≤ 0 then 0 else
    let roughness := clamp p.roughness 0.01 1
    let metallic := clamp p.metallic 0 1
    let alpha := roughness * roughness
    let alpha2 := alpha * alpha
    let f0 := p.albedo i * metallic + 0.04 * (1 - metallic)
    let diffuse := p.albedo i * ((1 - metallic) * (1 / π))
    let h := V3.normalize (wo + wi)
    let nh := max (V3.dot f.n h) 0
    let oh := max (V3.dot wo h) 0
    diffuse + schlick oh f0 * (ggxD nh alpha2 * smithG2 no ni alpha2 / (4 * no * ni))

/-- `CookTorranceBSDF::pdf` (`cook_torrance_bsdf.ipp` 135-168). -/
def cookPdf (wo wi : V3) (f : Frame) (p : Params n) : ℝ :=
  let no := V3.dot f.n wo
  let ni := V3.dot f.n wi
  if no ≤ 0 ∨ ni ≤ 0 then 0 else
    let roughness := clamp p.roughness 0.01 1
    let metallic := clamp p.metallic 0 1
    let alpha := roughness * roughness
    let alpha2 := alpha * alpha
    let h := V3.normalize (wo + wi)
    let nh := max (V3.dot f.n h) 0
    let specPdf := ggxD nh alpha2 * smithG1 no alpha2 / (4 * no)
    let diffPdf := ni * (1 / π)
    let w := 0.5 * (1 + metallic)
    w * specPdf + (1 - w) * diffPdf

/-- The virtual `eval`. -/
def Kind.eval (k : Kind) : V3 → V3 → Frame → Params n → (Fin n → ℝ) :=
  match k with
  | .lambertian => lambertianEval
  | .lommelSeeliger => lommelEval
  | .mcEwen => mcEwenEval
  | .orenNayar => orenEval
  | .hapke h B0 b c => hapkeEval h B0 b c
  | .cookTorrance => cookEval
  | .null => fun _ _ _ _ _ => 0  -- null_bsdf.ipp 11-22

/-- `pdf` of the models sampled with a cosine (`lommel_seeliger_bsdf.ipp` 63-79, `mcewen_bsdf.ipp` 78-94,
`oren_nayar_bsdf.ipp` 84-100, `hapke_bsdf.ipp` 125-141). -/
def cosinePdf (wo wi : V3) (f : Frame) : ℝ :=
  let ci := V3.dot wi f.n
  let co := V3.dot wo f.n
  if ci ≤ 0 ∨ co ≤ 0 then 0 else ci * (1 / π)

/-- The virtual `pdf`. -/
def Kind.pdf (k : Kind) (wo wi : V3) (f : Frame) (p : Params n) : ℝ :=
  match k with
  | .lambertian => if V3.dot wi f.n ≤ 0 then 0 else V3.dot wi f.n * (1 / π)  -- lambertian_bsdf.ipp 61-75
  | .cookTorrance => cookPdf wo wi f p
  | .null => 0  -- null_bsdf.ipp 46-57
  | _ => cosinePdf wo wi f

/-- An invalid sample. -/
def noSample (wi : V3) : BSample n := ⟨wi, fun _ => 0, 0, false⟩

/-- `LambertianBSDF::sample` (`lambertian_bsdf.ipp` 31-59). -/
def lambertianSample (wo : V3) (f : Frame) (p : Params n) (u1 u2 : ℝ) : BSample n :=
  let hs := cosine u1 u2
  let wi := localToWorld hs.dir f.t f.b f.n
  if V3.dot wi f.n ≤ 0 then noSample wi else ⟨wi, p.albedo, hs.pdf, false⟩

/-- `LommelSeeligerBSDF::sample` (`lommel_seeliger_bsdf.ipp` 34-61). -/
def lommelSample (wo : V3) (f : Frame) (p : Params n) (u1 u2 : ℝ) : BSample n :=
  let hs := cosine u1 u2
  let wi := localToWorld hs.dir f.t f.b f.n
  let ci := V3.dot wi f.n
  let co := V3.dot wo f.n
  if ci ≤ 0 ∨ co ≤ 0 then noSample wi else ⟨wi, fun i => p.albedo i / (4 * (ci + co)), hs.pdf, false⟩

/-- `sample` of McEwen, Oren–Nayar and Hapke (`mcewen_bsdf.ipp` 47-76, `oren_nayar_bsdf.ipp` 52-82, `hapke_bsdf.ipp` 93-123),
which differ in `eval` only. -/
def cosineSample (eval : V3 → V3 → Frame → Params n → (Fin n → ℝ)) (wo : V3) (f : Frame) (p : Params n) (u1 u2 : ℝ) :
    BSample n :=
  let hs := cosine u1 u2
  let wi := localToWorld hs.dir f.t f.b f.n
  let ci := V3.dot wi f.n
  let co := V3.dot wo f.n
  if ci ≤ 0 ∨ co ≤ 0 then noSample wi else ⟨wi, fun i => eval wo wi f p i * π, hs.pdf, false⟩

/-- The lobe choice of Cook–Torrance (`cook_torrance_bsdf.ipp` 79-84, 102): specular or diffuse, and the remapped number. -/
def lobe (w u1 : ℝ) : Bool × ℝ := if u1 < w then (true, u1 / w) else (false, (u1 - w) / (1 - w))

/-- `glm::reflect(I, N) = I - 2 dot(N, I) N`. -/
def reflect (I N : V3) : V3 := I - (2 * V3.dot N I : ℝ) * N

/-- `CookTorranceBSDF::sample` (`cook_torrance_bsdf.ipp` 57-133). -/
def cookSample (wo : V3) (f : Frame) (p : Params n) (u1 u2 : ℝ) : BSample n :=
  if V3.dot f.n wo ≤ 0 then noSample V3.zero else
    let metallic := clamp p.metallic 0 1
    let roughness := clamp p.roughness 0.01 1
    let w := 0.5 * (1 + metallic)
    let l := lobe w u1
    let wiL : V3 :=
      if l.1 then
        let woL := worldToLocal wo f.t f.b f.n
        reflect (-woL) (vndf woL roughness l.2 u2).dir
      else (cosine l.2 u2).dir
    if l.1 ∧ wiL.z ≤ 0 then noSample V3.zero else
      let wi := localToWorld wiL f.t f.b f.n
      let ni := V3.dot f.n wi
      if ni ≤ 0 then noSample wi else
        let fv := cookEval wo wi f p
        let q := cookPdf wo wi f p
        if q ≤ 0 then noSample wi else ⟨wi, fun i => fv i * (ni / q), q, false⟩

/-- The virtual `sample`. -/
def Kind.sample (k : Kind) (wo : V3) (f : Frame) (p : Params n) (u1 u2 : ℝ) : BSample n :=
  match k with
  | .lambertian => lambertianSample wo f p u1 u2
  | .lommelSeeliger => lommelSample wo f p u1 u2
  | .cookTorrance => cookSample wo f p u1 u2
  | .null => ⟨-wo, fun _ => 1, 1, true⟩  -- null_bsdf.ipp 24-44
  | .mcEwen => cosineSample mcEwenEval wo f p u1 u2
  | .orenNayar => cosineSample orenEval wo f p u1 u2
  | .hapke h B0 b c => cosineSample (hapkeEval h B0 b c) wo f p u1 u2

end
end Huira.Bsdf
