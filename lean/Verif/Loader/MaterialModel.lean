import Verif.Loader.Model
import Verif.Materials.MaterialModel
import Verif.ImageIO.ColorSpace
import Verif.Registry.Model
/-!
# Model of the conversion of a loaded 3D file: materials and textures

Models `include/huira_impl/assets/io/model_loader.ipp` 365-478 (`process_materials_`), 480-509 (`detect_image_format_`), 511-595
(reading images), 597-675 (pixel conversions) and 694-880 (`load_material_texture_`).  Assimp, the file system and the image readers
are parameters.  A loop over all pixels is a map over pixels; textures live in the scene's lists in order of registration and a
handle is the position in the list (`SceneObject::id` counts the objects of a type, `scene_object.hpp` 29, 90-91); names of textures
are dropped (registries accept every name, C02).  The three `unordered_map` caches are functions to optional handles.
-/
set_option linter.unusedSimpArgs false
namespace Huira.Loader
noncomputable section
open Material Registry

variable {n : ℕ}

/-- `Image<α>` (`image.hpp`): size and pixels. -/
structure Img (α : Type) where
  w : ℕ
  h : ℕ
  px : ℕ → ℕ → α

/-- A loop writing `f(src(x, y))` to every pixel of an image of the same size. -/
def Img.map {α β : Type} (f : α → β) (i : Img α) : Img β := ⟨i.w, i.h, fun x y => f (i.px x y)⟩

/-- `ImageFormat_` without `Unknown` (`model_loader.ipp` 480). -/
inductive Fmt
  | png | jpeg | tga | bmp | hdr
deriving DecidableEq

/-- `detect_image_format_` (`model_loader.ipp` 481-509); `none` is `Unknown`. -/
def detect (s : List Char) : Option Fmt :=
  let lower := s.map Char.toLower
  let lower := if lower.head? = some '.' then lower.drop 1 else lower
  if lower = "png".toList then some .png
  else if lower = "jpg".toList ∨ lower = "jpeg".toList then some .jpeg
  else if lower = "tga".toList then some .tga
  else if lower = "bmp".toList then some .bmp
  else if lower = "hdr".toList then some .hdr
  else none

/-- `ImageBundle<RGB>` (`image_bundle.hpp`): the image, the alpha image (empty when absent), whether the hint is `sRGB`. -/
structure Bundle where
  image : Img Rgb
  alpha : Img ℝ
  srgb : Bool

/-- What a reader called with `read_alpha = false` leaves in `alpha`: nothing. -/
def Bundle.noAlpha (b : Bundle) : Bundle := { b with alpha := ⟨0, 0, fun _ _ => 0⟩ }

/-- `aiTexel`: four bytes. -/
structure Texel where
  r : ℕ
  g : ℕ
  b : ℕ
  a : ℕ

/-- `aiTexture`: a compressed file in memory (`mHeight == 0`) or an array of texels. -/
inductive Embedded
  | compressed (data : List UInt8) (hint : List Char)
  | raw (w h : ℕ) (texel : ℕ → ℕ → Texel)

/-- What the loader reads from the outside: `spectral_conversion`; `aiScene::GetEmbeddedTexture`; the image readers (the result with
alpha; `none` is an exception); `base_directory / p`; `fs::exists`; `extension()`; `Image::sample_bilinear`. -/
structure Env (n : ℕ) where
  conv : Rgb → (Fin n → ℝ)
  embedded : Name → Option Embedded
  decodeMem : Fmt → List UInt8 → Option Bundle
  decodeFile : Fmt → Name → Option Bundle
  join : Name → Name
  exist : Name → Bool
  ext : Name → Name
  sample : {α : Type} → Img α → ℝ → ℝ → α

/-- The `aiTextureType`s the loader looks at. -/
inductive Slot
  | baseColor | roughness | metalness | normals | emission
deriving DecidableEq

/-- `aiMaterial`: per slot `none` when `GetTextureCount` is 0, `some none` when `GetTexture` fails, else the path; `aiColor4D` base
colour, the factors and `aiColor3D` emissive colour when `Get` succeeds. -/
structure AiMaterial where
  tex : Slot → Option (Option Name)
  baseColor : Option (Rgb × ℝ)
  roughness : Option ℝ
  metallic : Option ℝ
  emissive : Option Rgb

/-- A cache: `unordered_map<string, TextureHandle>`. -/
abbrev Cache := Name → Option ℕ

/-- `unordered_map::emplace`: does not overwrite. -/
def Cache.emplace (c : Cache) (k : Name) (v : ℕ) : Cache := fun x => if x = k then some ((c k).getD v) else c x

/-- The texture lists of the scene and the caches of `LoadContext` (`model_loader.hpp` 66-69). -/
structure St (n : ℕ) where
  spec : List (Img (Fin n → ℝ))
  mono : List (Img ℝ)
  vec : List (Img V3)
  specCache : Cache
  monoCache : Cache
  vecCache : Cache

/-- `load_rgb_from_file_` (`model_loader.ipp` 555-574): JPEG and HDR are read without alpha. -/
def loadRgbFile (env : Env n) (p : Name) (readAlpha : Bool) : Option Bundle :=
  (detect (env.ext p)).bind fun f => (env.decodeFile f p).map fun b =>
    match f with
    | .png | .tga | .bmp => if readAlpha then b else b.noAlpha
    | .jpeg | .hdr => b.noAlpha

/-- `load_rgb_from_buffer_` (`model_loader.ipp` 511-531). -/
def loadRgbBuffer (env : Env n) (f : Fmt) (data : List UInt8) (readAlpha : Bool) : Option Bundle :=
  (env.decodeMem f data).map fun b => if readAlpha then b else b.noAlpha

/-- The file a path names (`model_loader.ipp` 802-812). -/
def resolve (env : Env n) (p : Name) : Option Name :=
  if env.exist (env.join p) then some (env.join p) else if env.exist p then some p else none

/-- `if (read_alpha && alpha.width() > 0)` (`model_loader.ipp` 767-770, 789-792, 833-836). -/
def keptAlpha (readAlpha : Bool) (a : Img ℝ) : Option (Img ℝ) := if readAlpha && decide (0 < a.w) then some a else none

/-- The colours of a texel (`model_loader.ipp` 629-631). -/
def texelRgb (t : Texel) : Rgb := ((t.r : ℝ) * (1 / 255), (t.g : ℝ) * (1 / 255), (t.b : ℝ) * (1 / 255))

/-- Linearising in place (`model_loader.ipp` 817-824). -/
def linearise (isColor : Bool) (b : Bundle) : Bundle :=
  if isColor && b.srgb then
    { b with image := b.image.map fun c => (ImageIO.srgbToLinear c.1, ImageIO.srgbToLinear c.2.1, ImageIO.srgbToLinear c.2.2), srgb := false }
  else b

/-- Reading and converting a texture to spectral pixels (`model_loader.ipp` 736-850 with `TPixel = TSpectral`; raw texels 611-651). -/
def readSpectral (env : Env n) (p : Name) (readAlpha isColor : Bool) : Option (Img (Fin n → ℝ) × Option (Img ℝ)) :=
  match env.embedded p with
  | some (.compressed data hint) => (detect hint).bind fun f => (loadRgbBuffer env f data readAlpha).map fun b =>
      (b.image.map env.conv, keptAlpha readAlpha b.alpha)
  | some (.raw w h t) => some (⟨w, h, fun x y => env.conv (texelRgb (t x y))⟩, keptAlpha readAlpha ⟨w, h, fun x y => ((t x y).a : ℝ) * (1 / 255)⟩)
  | none => (resolve env p).bind fun q => (loadRgbFile env q readAlpha).map fun b =>
      ((linearise isColor b).image.map env.conv, keptAlpha readAlpha b.alpha)

/-- `rgb_to_vec3_` (`model_loader.ipp` 598-608). -/
def toVec3 (c : Rgb) : V3 := ⟨c.1, c.2.1, c.2.2⟩

/-- Reading and converting a texture to 3-vectors (`model_loader.ipp` 736-850 with `TPixel = Vec3<float>`). -/
def readVec (env : Env n) (p : Name) : Option (Img V3) :=
  match env.embedded p with
  | some (.compressed data hint) => (detect hint).bind fun f => (loadRgbBuffer env f data false).map fun b => b.image.map toVec3
  | some (.raw w h t) => some ⟨w, h, fun x y => toVec3 (texelRgb (t x y))⟩
  | none => (resolve env p).bind fun q => (loadRgbFile env q false).map fun b => b.image.map toVec3

/-- The cache key of the alpha image of a path (`model_loader.ipp` 728, 873). -/
def alphaKey (p : Name) : Name := p ++ "_alpha".toList

/-- Registering a spectral texture and its alpha image (`model_loader.ipp` 856-875). -/
def registerSpectral (s : St n) (p : Name) (img : Img (Fin n → ℝ)) : Option (Img ℝ) → St n × Option ℕ × Option ℕ
  | none => ({ s with spec := s.spec ++ [img], specCache := s.specCache.emplace p s.spec.length }, some s.spec.length, none)
  | some a => ({ s with
      spec := s.spec ++ [img], specCache := s.specCache.emplace p s.spec.length,
      mono := s.mono ++ [a], monoCache := s.monoCache.emplace (alphaKey p) s.mono.length }, some s.spec.length, some s.mono.length)

/-- `load_material_texture_<TSpectral>` after the path is known (`model_loader.ipp` 721-879). -/
def loadSpectralAt (env : Env n) (p : Name) (readAlpha isColor : Bool) (s : St n) : St n × Option ℕ × Option ℕ :=
  match s.specCache p with
  | some h => (s, some h, if readAlpha then s.monoCache (alphaKey p) else none)
  | none => match readSpectral env p readAlpha isColor with
    | none => (s, none, none)
    | some (img, a) => registerSpectral s p img a

/-- `load_material_texture_<TSpectral>` (`model_loader.ipp` 694-880). -/
def loadSpectral (env : Env n) (tex : Option (Option Name)) (readAlpha isColor : Bool) (s : St n) : St n × Option ℕ × Option ℕ :=
  match tex.join with
  | none => (s, none, none)
  | some p => loadSpectralAt env p readAlpha isColor s

/-- `add_normal_texture` (`scene.ipp` 969-976): `normalize(image * 2 - 1)`.  A vector of length zero stays zero here (NaN in the code). -/
def decodeNormal (v : V3) : V3 :=
  let d : V3 := ⟨v.x * 2 - 1, v.y * 2 - 1, v.z * 2 - 1⟩
  (1 / Real.sqrt (V3.dot d d)) * d

/-- Registering a vector texture (`model_loader.ipp` 856-868). -/
def registerVec (s : St n) (p : Name) (isNormals : Bool) (img : Img V3) : St n × Option ℕ :=
  ({ s with vec := s.vec ++ [if isNormals then img.map decodeNormal else img], vecCache := s.vecCache.emplace p s.vec.length }, some s.vec.length)

/-- `load_material_texture_<Vec3<float>>` after the path is known (`model_loader.ipp` 721-879). -/
def loadVecAt (env : Env n) (p : Name) (isNormals : Bool) (s : St n) : St n × Option ℕ :=
  match s.vecCache p with
  | some h => (s, some h)
  | none => match readVec env p with
    | none => (s, none)
    | some img => registerVec s p isNormals img

/-- `load_material_texture_<Vec3<float>>` (`model_loader.ipp` 694-880). -/
def loadVec (env : Env n) (tex : Option (Option Name)) (isNormals : Bool) (s : St n) : St n × Option ℕ :=
  match tex.join with
  | none => (s, none)
  | some p => loadVecAt env p isNormals s

/-- The image behind a handle; handles always name a registered texture, the scene keeps it alive. -/
def texOf {α : Type} (env : Env n) (l : List (Img α)) (d : α) (h : ℕ) : Tex α := ⟨h + 7, env.sample ((l[h]?).getD ⟨0, 0, fun _ _ => d⟩)⟩

/-- Albedo and alpha (`model_loader.ipp` 374-388). -/
def baseStep (env : Env n) (a : AiMaterial) (s : St n × Mat n) : St n × Mat n :=
  let r := loadSpectral env (a.tex .baseColor) true true s.1
  let m := match r.2.1 with
    | none => s.2
    | some h => match r.2.2 with
      | none => setAlbedo (texOf env r.1.spec (fun _ => 0) h) s.2
      | some ha => setAlpha (texOf env r.1.mono 0 ha) (setAlbedo (texOf env r.1.spec (fun _ => 0) h) s.2)
  (r.1, match a.baseColor with
    | none => m
    | some (c, al) => setAlphaF al (setAlbedoF (env.conv c) m))

/-- `"split_rough_" + std::to_string(id)` (`model_loader.ipp` 403). -/
def roughKey (h : ℕ) : Name := "split_rough_".toList ++ decimal h
/-- `"split_metal_" + std::to_string(id)` (`model_loader.ipp` 404). -/
def metalKey (h : ℕ) : Name := "split_metal_".toList ++ decimal h

/-- The slot the packed texture is taken from (`model_loader.ipp` 391-396). -/
def packedSlot (a : AiMaterial) : Option (Option Name) := if (a.tex .roughness).isSome then a.tex .roughness else a.tex .metalness

/-- Splitting the packed texture into channels (`model_loader.ipp` 406-436): handles of the roughness and the metallic image. -/
def split (s : St n) (h : ℕ) : St n × ℕ × ℕ :=
  match s.monoCache (roughKey h), s.monoCache (metalKey h) with
  | some r, some m => (s, r, m)
  | _, _ =>
    let packed := (s.vec[h]?).getD ⟨0, 0, fun _ _ => V3.zero⟩
    ({ s with
      mono := s.mono ++ [packed.map fun v => v.y] ++ [packed.map fun v => v.z],
      monoCache := (s.monoCache.emplace (roughKey h) s.mono.length).emplace (metalKey h) (s.mono.length + 1) },
     s.mono.length, s.mono.length + 1)

/-- Roughness and metallic (`model_loader.ipp` 390-452). -/
def packedStep (env : Env n) (a : AiMaterial) (s : St n × Mat n) : St n × Mat n :=
  let r := loadVec env (packedSlot a) false s.1
  let t : St n × Mat n := match r.2 with
    | none => (r.1, s.2)
    | some h =>
      let q := split r.1 h
      (q.1, setMetallic (texOf env q.1.mono 0 q.2.2) (setRoughness (texOf env q.1.mono 0 q.2.1) s.2))
  let m := match a.roughness with
    | none => t.2
    | some f => setRoughnessF f t.2
  (t.1, match a.metallic with
    | none => m
    | some f => setMetallicF f m)

/-- Normals (`model_loader.ipp` 454-459). -/
def normalStep (env : Env n) (a : AiMaterial) (s : St n × Mat n) : St n × Mat n :=
  let r := loadVec env (a.tex .normals) true s.1
  (r.1, match r.2 with
    | none => s.2
    | some h => setNormal (texOf env r.1.vec V3.zero h) s.2)

/-- Emission (`model_loader.ipp` 461-471). -/
def emissionStep (env : Env n) (a : AiMaterial) (s : St n × Mat n) : St n × Mat n :=
  let r := loadSpectral env (a.tex .emission) false false s.1
  let m := match r.2.1 with
    | none => s.2
    | some h => setEmissive (texOf env r.1.spec (fun _ => 0) h) s.2
  (r.1, match a.emissive with
    | none => m
    | some c => setEmissiveF (env.conv c) m)

/-- One turn of the loop of `process_materials_` (`model_loader.ipp` 369-477). -/
def processMaterial (env : Env n) (a : AiMaterial) (s : St n) : St n × Mat n :=
  emissionStep env a (normalStep env a (packedStep env a (baseStep env a (s, Material.new .cookTorrance (sceneDefaults 0)))))

/-- `process_materials_` (`model_loader.ipp` 365-478): the materials in the order of the file. -/
def processMaterials (env : Env n) : List AiMaterial → St n → St n × List (Mat n)
  | [], s => (s, [])
  | a :: as, s =>
    let r := processMaterial env a s
    let q := processMaterials env as r.1
    (q.1, r.2 :: q.2)

/-- The texture lists of the scene as loading finds them; the caches of a new `LoadContext` are empty (`model_loader.ipp` 74). -/
def fresh (spec : List (Img (Fin n → ℝ))) (mono : List (Img ℝ)) (vec : List (Img V3)) : St n :=
  ⟨spec, mono, vec, fun _ => none, fun _ => none, fun _ => none⟩

end
end Huira.Loader
