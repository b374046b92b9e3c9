import Verif.Loader.MaterialModel
import Verif.Registry.Lemmas
import Mathlib.Tactic.Ring
import Mathlib.Tactic.NormNum
/-! # C110: the materials of a loaded file look as the file describes them -/
set_option linter.unusedSimpArgs false
set_option linter.unusedVariables false
namespace Huira.Loader
noncomputable section
open Material Registry

variable {n : ℕ}

/-! ## Specification: what a material of the file looks like -/

/-- The picture a texture path denotes: embedded in the file, or on disk relative to the model or to the working directory. -/
def picture (env : Env n) (p : Name) : Option Bundle :=
  match env.embedded p with
  | some (.compressed data hint) => (detect hint).bind fun f => env.decodeMem f data
  | some (.raw w h t) => some ⟨⟨w, h, fun x y => ((t x y).r / 255, (t x y).g / 255, (t x y).b / 255)⟩, ⟨w, h, fun x y => (t x y).a / 255⟩, false⟩
  | none => if env.exist (env.join p) then (detect (env.ext (env.join p))).bind fun f => env.decodeFile f (env.join p)
            else if env.exist p then (detect (env.ext p)).bind fun f => env.decodeFile f p else none

/-- The picture of a slot, if there is one and it can be read. -/
def slotPicture (env : Env n) (a : AiMaterial) (sl : Slot) : Option Bundle := (a.tex sl).join.bind (picture env)

/-- Linear colours of a picture. -/
def colour (b : Bundle) : Img Rgb :=
  if b.srgb then b.image.map fun c => (ImageIO.srgbToLinear c.1, ImageIO.srgbToLinear c.2.1, ImageIO.srgbToLinear c.2.2) else b.image

/-- The value of an image at texture coordinates, or a constant when there is no image. -/
def lookup {α : Type} (env : Env n) (d : α) (i : Option (Img α)) (u v : ℝ) : α := match i with
  | some i => env.sample i u v
  | none => d

/-- The alpha image of a picture, if it has one. -/
def alphaImage (b : Bundle) : Option (Img ℝ) := if 0 < b.alpha.w then some b.alpha else none

/-- The description read as metallic-roughness (glTF): colours are linear light converted to spectra, roughness is the green channel of
the roughness texture, metallic the blue channel of the metalness texture, textures multiply factors, a missing texture counts as
one, and without texture and factor there is neither metal nor emission. -/
def described (env : Env n) (a : AiMaterial) (is : Isect n) : Shading n where
  albedo := fun i => lookup env (fun _ => 1) ((slotPicture env a .baseColor).map fun b => (colour b).map env.conv) is.u is.v i *
    ((a.baseColor.map fun c => env.conv c.1).getD fun _ => 1) i * is.vertexAlbedo i
  opacity := lookup env 1 ((slotPicture env a .baseColor).bind alphaImage) is.u is.v * (a.baseColor.map fun c => c.2).getD 1
  roughness := lookup env 1 ((slotPicture env a .roughness).map fun b => b.image.map fun c => c.2.1) is.u is.v * a.roughness.getD 1
  metallic := lookup env 1 ((slotPicture env a .metalness).map fun b => b.image.map fun c => c.2.2) is.u is.v *
    a.metallic.getD (if (slotPicture env a .metalness).isSome then 1 else 0)
  transmission := fun _ => 0
  emission := fun i => lookup env (fun _ => 1) ((slotPicture env a .emission).map fun b => (colour b).map env.conv) is.u is.v i *
    (a.emissive.map env.conv).getD (if (slotPicture env a .emission).isSome then fun _ => 1 else fun _ => 0) i

/-- The unit vector a colour of a normal map stands for. -/
def normalOf (c : Rgb) : V3 :=
  let d : V3 := ⟨2 * c.1 - 1, 2 * c.2.1 - 1, 2 * c.2.2 - 1⟩
  (1 / Real.sqrt (V3.dot d d)) * d

/-- The described normal map. -/
def describedNormal (env : Env n) (a : AiMaterial) (u v : ℝ) : V3 :=
  lookup env ⟨0, 0, 1⟩ ((slotPicture env a .normals).map fun b => b.image.map normalOf) u v

/-- Whether the description makes the surface (partly) transparent. -/
def describedTransparent (env : Env n) (a : AiMaterial) : Prop :=
  ((slotPicture env a .baseColor).bind alphaImage).isSome ∨ ∃ c f, a.baseColor = some (c, f) ∧ f < 1

/-- A material looks as described. -/
structure Looks (env : Env n) (a : AiMaterial) (m : Mat n) : Prop where
  shading : ∀ is, shade m is = described env a is
  normal : ∀ u v, m.img.normal.at' u v = describedNormal env a u v
  normalF : m.normalF = 1
  transparent : m.hasAlpha = true ↔ describedTransparent env a
  bsdf : m.bsdf = .cookTorrance
  reads : m.evalAlbedo = true ∧ m.evalRoughness = true ∧ m.evalMetallic = true ∧ m.evalNormal = true

/-- JPEG and Radiance pictures have no alpha channel (contract of those readers). -/
def NoAlphaFormats (env : Env n) : Prop := ∀ p b, (env.decodeFile .jpeg p = some b ∨ env.decodeFile .hdr p = some b) → b.alpha.w = 0

/-- C110 in full. -/
def C110_full : Prop := ∀ (env : Env 1), NoAlphaFormats env → ∀ (mats : List AiMaterial) (spec : List (Img (Fin 1 → ℝ))) (mono : List (Img ℝ))
  (vec : List (Img V3)), ∀ (i : ℕ) (a : AiMaterial) (m : Mat 1), mats[i]? = some a → (processMaterials env mats (fresh spec mono vec)).2[i]? = some m → Looks env a m

/-! ## Conditions under which it holds -/

/-- A path fills a slot of some material of the file. -/
def Used (mats : List AiMaterial) (sl : Slot) (p : Name) : Prop := ∃ a ∈ mats, a.tex sl = some (some p)

/-- What exporters of glTF guarantee and what the loader needs: no picture serves both as base colour and as emission, nor both as
roughness/metalness and as normal map; roughness and metalness are one texture; embedded base colours and all emissive pictures are not
marked sRGB. -/
structure Plain (env : Env n) (mats : List AiMaterial) : Prop where
  baseEmission : ∀ p, Used mats .baseColor p → ¬ Used mats .emission p
  packedNormal : ∀ p, Used mats .roughness p → ¬ Used mats .normals p
  packed : ∀ a ∈ mats, a.tex .roughness = a.tex .metalness
  embedded : ∀ p b, Used mats .baseColor p → (env.embedded p).isSome → picture env p = some b → b.srgb = false
  emission : ∀ p b, Used mats .emission p → picture env p = some b → b.srgb = false

/-! ## Reading -/

theorem readSpectral_base {env : Env n} (hf : NoAlphaFormats env) (p : Name)
    (he : ∀ b, (env.embedded p).isSome → picture env p = some b → b.srgb = false) :
    readSpectral env p true true = (picture env p).map fun b => ((colour b).map env.conv, alphaImage b) := by
  unfold readSpectral picture loadRgbBuffer resolve
  unfold picture at he
  cases hm : env.embedded p with
  | none =>
    simp only []
    have key : ∀ q, (loadRgbFile env q true).map (fun b => ((linearise true b).image.map env.conv, keptAlpha true b.alpha)) =
        ((detect (env.ext q)).bind fun f => env.decodeFile f q).map fun b => ((colour b).map env.conv, alphaImage b) := by
      intro q
      unfold loadRgbFile
      cases detect (env.ext q) with
      | none => rfl
      | some f =>
        simp only [Option.bind_some]
        cases hd : env.decodeFile f q with
        | none => rfl
        | some b =>
          have h0 : (f = .jpeg ∨ f = .hdr) → b.alpha.w = 0 := by
            rintro (rfl | rfl)
            · exact hf q b (Or.inl hd)
            · exact hf q b (Or.inr hd)
          simp only [Option.map_some, Option.some.injEq]
          cases f <;> simp [linearise, colour, keptAlpha, alphaImage, Bundle.noAlpha] at h0 ⊢ <;> (try split_ifs <;> simp_all)
    split_ifs
    · exact key _
    · exact key _
    · rfl
  | some e =>
    cases e with
    | compressed data hint =>
      simp only [hm, Option.isSome_some, forall_true_left] at he ⊢
      cases hdt : detect hint with
      | none => rfl
      | some f =>
        rw [hdt] at he
        simp only [Option.bind_some] at he ⊢
        cases hd : env.decodeMem f data with
        | none => rfl
        | some b => simp [colour, he b hd, keptAlpha, alphaImage]
    | raw w h t => simp [colour, Img.map, texelRgb, keptAlpha, alphaImage, div_eq_mul_inv]

theorem readSpectral_emission {env : Env n} (p : Name) (he : ∀ b, picture env p = some b → b.srgb = false) :
    readSpectral env p false false = (picture env p).map fun b => ((colour b).map env.conv, none) := by
  unfold readSpectral picture loadRgbBuffer resolve
  unfold picture at he
  cases hm : env.embedded p with
  | none =>
    simp only [hm] at he ⊢
    have key : ∀ q, (∀ b, (detect (env.ext q)).bind (fun f => env.decodeFile f q) = some b → b.srgb = false) →
        (loadRgbFile env q false).map (fun b => ((linearise false b).image.map env.conv, keptAlpha false b.alpha)) =
        ((detect (env.ext q)).bind fun f => env.decodeFile f q).map fun b => ((colour b).map env.conv, none) := by
      intro q hq
      unfold loadRgbFile
      cases hdt : detect (env.ext q) with
      | none => rfl
      | some f =>
        rw [hdt] at hq
        simp only [Option.bind_some] at hq ⊢
        cases hd : env.decodeFile f q with
        | none => rfl
        | some b =>
          have := hq b hd
          simp only [Option.map_some, Option.some.injEq]
          cases f <;> simp [linearise, colour, keptAlpha, alphaImage, Bundle.noAlpha, this]
    split_ifs at he ⊢
    · exact key _ he
    · exact key _ he
    · rfl
  | some e =>
    cases e with
    | compressed data hint =>
      simp only [hm, Option.isSome_some, forall_true_left] at he ⊢
      cases hdt : detect hint with
      | none => rfl
      | some f =>
        rw [hdt] at he
        simp only [Option.bind_some] at he ⊢
        cases hd : env.decodeMem f data with
        | none => rfl
        | some b => simp [colour, he b hd, keptAlpha, alphaImage, Bundle.noAlpha]
    | raw w h t => simp [colour, Img.map, texelRgb, keptAlpha, alphaImage, div_eq_mul_inv]

theorem readVec_eq {env : Env n} (p : Name) : readVec env p = (picture env p).map fun b => b.image.map toVec3 := by
  unfold readVec picture loadRgbBuffer resolve
  cases hm : env.embedded p with
  | none =>
    simp only []
    have key : ∀ q, (loadRgbFile env q false).map (fun b => b.image.map toVec3) =
        ((detect (env.ext q)).bind fun f => env.decodeFile f q).map fun b => b.image.map toVec3 := by
      intro q
      unfold loadRgbFile
      cases detect (env.ext q) with
      | none => rfl
      | some f =>
        simp only [Option.bind_some]
        cases env.decodeFile f q with
        | none => rfl
        | some b => cases f <;> rfl
    split_ifs
    · exact key _
    · exact key _
    · rfl
  | some e =>
    cases e with
    | compressed data hint =>
      simp only []
      cases detect hint with
      | none => rfl
      | some f =>
        simp only [Option.bind_some]
        cases env.decodeMem f data with
        | none => rfl
        | some b => rfl
    | raw w h t => simp [Img.map, texelRgb, div_eq_mul_inv]

/-! ## Keys -/

theorem alphaKey_inj {p q : Name} (h : alphaKey p = alphaKey q) : p = q := by
  unfold alphaKey at h
  exact List.append_cancel_right h

theorem roughKey_inj {a b : ℕ} (h : roughKey a = roughKey b) : a = b := by
  unfold roughKey at h
  exact decimal_inj (List.append_cancel_left h)

theorem metalKey_inj {a b : ℕ} (h : metalKey a = metalKey b) : a = b := by
  unfold metalKey at h
  exact decimal_inj (List.append_cancel_left h)

theorem rough_ne_metal (a b : ℕ) : roughKey a ≠ metalKey b := by
  intro h
  unfold roughKey metalKey at h
  have := (List.append_inj h (by decide)).1
  exact absurd this (by decide)

theorem decimalAux_ne_nil (fuel m : ℕ) : decimalAux (fuel + 1) m ≠ [] := by
  rw [decimalAux]; split_ifs <;> simp

theorem decimalAux_last : ∀ (fuel m : ℕ), ∃ d < 10, (decimalAux (fuel + 1) m).getLast? = some (digitChar d) := by
  intro fuel m
  rw [decimalAux]
  split_ifs with h
  · exact ⟨m, h, by simp⟩
  · exact ⟨m % 10, by omega, by simp⟩

theorem digit_ne_a {d : ℕ} (h : d < 10) : digitChar d ≠ 'a' := by
  have : d = 0 ∨ d = 1 ∨ d = 2 ∨ d = 3 ∨ d = 4 ∨ d = 5 ∨ d = 6 ∨ d = 7 ∨ d = 8 ∨ d = 9 := by omega
  rcases this with rfl | rfl | rfl | rfl | rfl | rfl | rfl | rfl | rfl | rfl <;> decide

theorem alpha_last (p : Name) : (alphaKey p).getLast? = some 'a' := by simp [alphaKey]

theorem rough_last (h : ℕ) : ∃ d < 10, (roughKey h).getLast? = some (digitChar d) := by
  obtain ⟨d, hd, e⟩ := decimalAux_last h h
  refine ⟨d, hd, ?_⟩
  unfold roughKey decimal
  rw [List.getLast?_append, e, Option.some_or]

theorem metal_last (h : ℕ) : ∃ d < 10, (metalKey h).getLast? = some (digitChar d) := by
  obtain ⟨d, hd, e⟩ := decimalAux_last h h
  refine ⟨d, hd, ?_⟩
  unfold metalKey decimal
  rw [List.getLast?_append, e, Option.some_or]

theorem alpha_ne_rough (p : Name) (h : ℕ) : alphaKey p ≠ roughKey h := by
  intro e
  obtain ⟨d, hd, l⟩ := rough_last h
  rw [← e, alpha_last] at l
  exact digit_ne_a hd (Option.some.inj l).symm

theorem alpha_ne_metal (p : Name) (h : ℕ) : alphaKey p ≠ metalKey h := by
  intro e
  obtain ⟨d, hd, l⟩ := metal_last h
  rw [← e, alpha_last] at l
  exact digit_ne_a hd (Option.some.inj l).symm

end
end Huira.Loader
