import Verif.Materials.BsdfModel

/-!
# Model of `Material`

Models `include/huira_impl/materials/material.ipp` and `include/huira/materials/material.hpp`.  A texture is its identity (the
pointer of the shared image) together with what `sample_bilinear` returns (modelled separately in `Image`); `float` is the
reals and a spectral value is a function of the bin index.
-/

namespace Huira.Material

noncomputable section
open Classical Huira.Sampling Huira.Bsdf

/-- `std::shared_ptr<Image<α>>`: the identity and the value of `sample_bilinear(u, v)`. -/
structure Tex (α : Type) where
  id : ℕ
  at' : ℝ → ℝ → α

/-- `struct BSDFRequirements` (`bsdf.hpp` 12-26). -/
structure Reqs where
  albedo : Bool
  metallic : Bool
  roughness : Bool
  normal : Bool
deriving DecidableEq

/-- The virtual `requirements` (`lambertian_bsdf.ipp` 5-14, `lommel_seeliger_bsdf.ipp` 7-16, `mcewen_bsdf.ipp` 8-17,
`oren_nayar_bsdf.ipp` 8-17, `hapke_bsdf.ipp` 9-18, `cook_torrance_bsdf.ipp` 8-17, `null_bsdf.ipp` 5-9). -/
def requirements : Kind → Reqs
  | .lambertian => ⟨true, false, false, true⟩
  | .lommelSeeliger => ⟨true, false, false, true⟩
  | .mcEwen => ⟨true, false, false, true⟩
  | .orenNayar => ⟨true, false, true, true⟩
  | .hapke .. => ⟨true, false, false, true⟩
  | .cookTorrance => ⟨true, true, true, true⟩
  | .null => ⟨false, false, false, false⟩

variable {n : ℕ}

/-- The images of a material (`material.hpp` 107-114) or its defaults (`material.hpp` 121-137). -/
structure Images (n : ℕ) where
  albedo : Tex (Fin n → ℝ)
  alpha : Tex ℝ
  metallic : Tex ℝ
  roughness : Tex ℝ
  normal : Tex V3
  transmission : Tex (Fin n → ℝ)
  emissive : Tex (Fin n → ℝ)

/-- `class Material` (`material.hpp` 107-150). -/
structure Mat (n : ℕ) where
  img : Images n
  dflt : Images n
  bsdf : Kind
  evalAlbedo : Bool
  hasAlpha : Bool
  evalMetallic : Bool
  evalRoughness : Bool
  evalNormal : Bool
  albedoF : Fin n → ℝ
  alphaF : ℝ
  metallicF : ℝ
  roughnessF : ℝ
  normalF : ℝ
  transmissionF : Fin n → ℝ
  emissiveF : Fin n → ℝ

/-- `set_bsdf` (`material.ipp` 92-103). -/
def setBsdf (k : Kind) (m : Mat n) : Mat n :=
  let r := requirements k
  { m with bsdf := k, evalAlbedo := r.albedo, evalMetallic := r.metallic, evalRoughness := r.roughness, evalNormal := r.normal }

/-- The constructor (`material.ipp` 264-289) with the member initialisers of `material.hpp` 120-150. -/
def new (k : Kind) (d : Images n) : Mat n :=
  setBsdf k { img := d, dflt := d, bsdf := k, evalAlbedo := true, hasAlpha := false, evalMetallic := true,
              evalRoughness := true, evalNormal := true, albedoF := fun _ => 1, alphaF := 1, metallicF := 0,
              roughnessF := 1, normalF := 1, transmissionF := fun _ => 0, emissiveF := fun _ => 0 }

/-- `set_albedo` (`material.ipp` 105-109). -/
def setAlbedo (t : Tex (Fin n → ℝ)) (m : Mat n) : Mat n := { m with img := { m.img with albedo := t } }
/-- `set_albedo_factor` (`material.ipp` 111-115). -/
def setAlbedoF (f : Fin n → ℝ) (m : Mat n) : Mat n := { m with albedoF := f }
/-- `reset_albedo` (`material.ipp` 117-122). -/
def resetAlbedo (m : Mat n) : Mat n := { m with img := { m.img with albedo := m.dflt.albedo }, albedoF := fun _ => 1 }

/-- `set_alpha` (`material.ipp` 124-129). -/
def setAlpha (t : Tex ℝ) (m : Mat n) : Mat n := { m with img := { m.img with alpha := t }, hasAlpha := true }
/-- `set_alpha_factor` (`material.ipp` 131-138). -/
def setAlphaF (f : ℝ) (m : Mat n) : Mat n :=
  { m with alphaF := f, hasAlpha := if f < 1 then true else m.hasAlpha }
/-- `reset_alpha` (`material.ipp` 140-146). -/
def resetAlpha (m : Mat n) : Mat n :=
  { m with img := { m.img with alpha := m.dflt.alpha }, alphaF := 1, hasAlpha := false }

/-- `set_metallic_image` (`material.ipp` 148-155). -/
def setMetallic (t : Tex ℝ) (m : Mat n) : Mat n :=
  { m with img := { m.img with metallic := t }, metallicF := if m.metallicF = 0 then 1 else m.metallicF }
/-- `set_metallic_factor` (`material.ipp` 157-161). -/
def setMetallicF (f : ℝ) (m : Mat n) : Mat n := { m with metallicF := f }
/-- `reset_metallic` (`material.ipp` 163-168). -/
def resetMetallic (m : Mat n) : Mat n := { m with img := { m.img with metallic := m.dflt.metallic }, metallicF := 0 }

/-- `set_roughness_image` (`material.ipp` 170-174). -/
def setRoughness (t : Tex ℝ) (m : Mat n) : Mat n := { m with img := { m.img with roughness := t } }
/-- `set_roughness_factor` (`material.ipp` 176-180). -/
def setRoughnessF (f : ℝ) (m : Mat n) : Mat n := { m with roughnessF := f }
/-- `reset_roughness` (`material.ipp` 182-187). -/
def resetRoughness (m : Mat n) : Mat n := { m with img := { m.img with roughness := m.dflt.roughness }, roughnessF := 1 }

/-- `set_normal_image` (`material.ipp` 189-193). -/
def setNormal (t : Tex V3) (m : Mat n) : Mat n := { m with img := { m.img with normal := t } }
/-- `set_normal_factor` (`material.ipp` 195-199). -/
def setNormalF (f : ℝ) (m : Mat n) : Mat n := { m with normalF := f }
/-- `reset_normal` (`material.ipp` 201-206). -/
def resetNormal (m : Mat n) : Mat n := { m with img := { m.img with normal := m.dflt.normal }, normalF := 1 }

/-- `set_transmission_image` (`material.ipp` 208-216); the comparison of spectral values is of all bins. -/
def setTransmission (t : Tex (Fin n → ℝ)) (m : Mat n) : Mat n :=
  { m with img := { m.img with transmission := t },
           transmissionF := if m.transmissionF = (fun _ => 0) then (fun _ => 1) else m.transmissionF }
/-- `set_transmission_factor` (`material.ipp` 218-222). -/
def setTransmissionF (f : Fin n → ℝ) (m : Mat n) : Mat n := { m with transmissionF := f }
/-- `reset_transmission` (`material.ipp` 224-229). -/
def resetTransmission (m : Mat n) : Mat n :=
  { m with img := { m.img with transmission := m.dflt.transmission }, transmissionF := fun _ => 0 }

/-- `set_emissive_image` (`material.ipp` 231-238). -/
def setEmissive (t : Tex (Fin n → ℝ)) (m : Mat n) : Mat n :=
  { m with img := { m.img with emissive := t },
           emissiveF := if m.emissiveF = (fun _ => 0) then (fun _ => 1) else m.emissiveF }
/-- `set_emissive_factor` (`material.ipp` 240-244). -/
def setEmissiveF (f : Fin n → ℝ) (m : Mat n) : Mat n := { m with emissiveF := f }
/-- `reset_emissive` (`material.ipp` 246-251). -/
def resetEmissive (m : Mat n) : Mat n :=
  { m with img := { m.img with emissive := m.dflt.emissive }, emissiveF := fun _ => 0 }

/-- The calls a user can make on a material handle (`material_handle.ipp`), each forwarding to the member of the same name. -/
inductive Op (n : ℕ)
  | setBsdf (k : Kind)
  | setAlbedo (t : Tex (Fin n → ℝ)) | setAlbedoF (f : Fin n → ℝ) | resetAlbedo
  | setAlpha (t : Tex ℝ) | setAlphaF (f : ℝ) | resetAlpha
  | setMetallic (t : Tex ℝ) | setMetallicF (f : ℝ) | resetMetallic
  | setRoughness (t : Tex ℝ) | setRoughnessF (f : ℝ) | resetRoughness
  | setNormal (t : Tex V3) | setNormalF (f : ℝ) | resetNormal
  | setTransmission (t : Tex (Fin n → ℝ)) | setTransmissionF (f : Fin n → ℝ) | resetTransmission
  | setEmissive (t : Tex (Fin n → ℝ)) | setEmissiveF (f : Fin n → ℝ) | resetEmissive

/-- `MaterialHandle` (`material_handle.ipp` 2-131). -/
def apply (m : Mat n) : Op n → Mat n
  | .setBsdf k => setBsdf k m
  | .setAlbedo t => setAlbedo t m
  | .setAlbedoF f => setAlbedoF f m
  | .resetAlbedo => resetAlbedo m
  | .setAlpha t => setAlpha t m
  | .setAlphaF f => setAlphaF f m
  | .resetAlpha => resetAlpha m
  | .setMetallic t => setMetallic t m
  | .setMetallicF f => setMetallicF f m
  | .resetMetallic => resetMetallic m
  | .setRoughness t => setRoughness t m
  | .setRoughnessF f => setRoughnessF f m
  | .resetRoughness => resetRoughness m
  | .setNormal t => setNormal t m
  | .setNormalF f => setNormalF f m
  | .resetNormal => resetNormal m
  | .setTransmission t => setTransmission t m
  | .setTransmissionF f => setTransmissionF f m
  | .resetTransmission => resetTransmission m
  | .setEmissive t => setEmissive t m
  | .setEmissiveF f => setEmissiveF f m
  | .resetEmissive => resetEmissive m

/-- A history of calls on a new material. -/
def run (k : Kind) (d : Images n) (ops : List (Op n)) : Mat n := ops.foldl apply (new k d)

/-- `has_alpha_texture` (`material.hpp` 118). -/
def hasAlphaTexture (m : Mat n) : Bool := m.img.alpha.id != m.dflt.alpha.id

/-- The default images of a scene (`scene.ipp` 51-57): one pixel each. -/
def sceneDefaults (id : ℕ) : Images n where
  albedo := ⟨id, fun _ _ _ => 1⟩
  alpha := ⟨id + 1, fun _ _ => 1⟩
  metallic := ⟨id + 2, fun _ _ => 1⟩
  roughness := ⟨id + 3, fun _ _ => 1⟩
  normal := ⟨id + 4, fun _ _ => ⟨0, 0, 1⟩⟩
  transmission := ⟨id + 5, fun _ _ _ => 1⟩
  emissive := ⟨id + 6, fun _ _ _ => 1⟩

/-- `struct Interaction` (`interaction.hpp` 18-32). -/
structure Isect (n : ℕ) where
  position : V3
  normalG : V3
  normalS : V3
  tangent : V3
  bitangent : V3
  u : ℝ
  v : ℝ
  wo : V3
  vertexAlbedo : Fin n → ℝ

/-- `struct ShadingParams` (`shading_params.hpp` 20-38) with its initialisers. -/
structure Shading (n : ℕ) where
  albedo : Fin n → ℝ := fun _ => 1
  roughness : ℝ := 0.5
  metallic : ℝ := 0
  opacity : ℝ := 1
  transmission : Fin n → ℝ := fun _ => 0
  emission : Fin n → ℝ := fun _ => 0

/-- The perturbed normal (`material.ipp` 43-54); `none` when a vector of length zero is normalised (NaN in the code). -/
def perturb (t : Tex V3) (factor : ℝ) (is : Isect n) : Option V3 :=
  (V3.normalize? (t.at' is.u is.v)).bind fun a =>
  (V3.normalize? ⟨a.x * factor, a.y * factor, a.z⟩).bind fun s =>
  V3.normalize? ((s.x * is.tangent + s.y * is.bitangent) + s.z * is.normalS)

/-- `MaterialEval` (`material.hpp` 20-24). -/
structure Eval (n : ℕ) where
  params : Shading n
  isect : Isect n

/-- The parameters computed by `evaluate` (`material.ipp` 15-38). -/
def shade (m : Mat n) (is : Isect n) : Shading n :=
  { albedo := if m.evalAlbedo then fun i => m.img.albedo.at' is.u is.v i * m.albedoF i * is.vertexAlbedo i else fun _ => 1
    opacity := m.img.alpha.at' is.u is.v * m.alphaF
    metallic := if m.evalMetallic then m.img.metallic.at' is.u is.v * m.metallicF else 0
    roughness := if m.evalRoughness then m.img.roughness.at' is.u is.v * m.roughnessF else 0.5
    transmission := fun i => m.img.transmission.at' is.u is.v i * m.transmissionF i
    emission := fun i => m.img.emissive.at' is.u is.v i * m.emissiveF i }

/-- The shading normal (`material.ipp` 40-55). -/
def shadingNormal (m : Mat n) (is : Isect n) : Option V3 :=
  if m.evalNormal then
    if is.tangent ≠ V3.zero then perturb m.img.normal m.normalF is else some is.normalS
  else some is.normalS

/-- `Material::evaluate` (`material.ipp` 12-66); `none` when a vector of length zero is normalised (NaN in the code). -/
def evaluate (m : Mat n) (is : Isect n) : Option (Eval n) :=
  (shadingNormal m is).bind fun ns =>
  (V3.normalize? (is.tangent - (V3.dot is.tangent ns : ℝ) * ns)).map fun t =>
  ⟨shade m is, { is with normalS := ns, tangent := t, bitangent := V3.cross ns t }⟩

/-- The part of the interaction the reflectance models read. -/
def Eval.frame (e : Eval n) : Frame := ⟨e.isect.tangent, e.isect.bitangent, e.isect.normalS⟩
/-- The part of the parameters the reflectance models read. -/
def Eval.bparams (e : Eval n) : Params n := ⟨e.params.albedo, e.params.roughness, e.params.metallic⟩

/-- `bsdf_eval` (`material.ipp` 68-74). -/
def bsdfEval (m : Mat n) (wo wi : V3) (e : Eval n) : Fin n → ℝ := m.bsdf.eval wo wi e.frame e.bparams
/-- `bsdf_sample` (`material.ipp` 76-83). -/
def bsdfSample (m : Mat n) (wo : V3) (e : Eval n) (u1 u2 : ℝ) : BSample n := m.bsdf.sample wo e.frame e.bparams u1 u2
/-- `bsdf_pdf` (`material.ipp` 85-91). -/
def bsdfPdf (m : Mat n) (wo wi : V3) (e : Eval n) : ℝ := m.bsdf.pdf wo wi e.frame e.bparams

end
end Huira.Material
