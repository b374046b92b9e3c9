import Verif.Loader.Looks
/-! # C110: the theorems -/
set_option linter.unusedSimpArgs false
set_option linter.unusedVariables false
namespace Huira.Loader
noncomputable section
open Material Registry

variable {n : ℕ}

theorem texOf_at {α : Type} (env : Env n) {l : List (Img α)} (d : α) {h : ℕ} {i : Img α} (e : l[h]? = some i) :
    (texOf env l d h).at' = env.sample i := by simp [texOf, e]

theorem base_ok {env : Env n} (hf : NoAlphaFormats env) {mats : List AiMaterial} (hm : Plain env mats) {s : St n} (hs : Inv env mats s)
    {a : AiMaterial} (ha : a ∈ mats) (m : Mat n) :
    Inv env mats (baseStep env a (s, m)).1 ∧ ∃ (X : Tex (Fin n → ℝ)) (Y : Tex ℝ) (t : Bool),
      (baseStep env a (s, m)).2 = { m with
        img := { m.img with albedo := X, alpha := Y }, albedoF := (a.baseColor.map fun c => env.conv c.1).getD m.albedoF,
        alphaF := (a.baseColor.map fun c => c.2).getD m.alphaF, hasAlpha := t } ∧
      X.at' = ((slotPicture env a .baseColor).map fun b => env.sample ((colour b).map env.conv)).getD m.img.albedo.at' ∧
      Y.at' = (((slotPicture env a .baseColor).bind alphaImage).map fun i => env.sample i).getD m.img.alpha.at' ∧
      (t = true ↔ m.hasAlpha = true ∨ describedTransparent env a) := by
  obtain ⟨h1, h2, h3⟩ := load_base hf hm hs ha
  unfold baseStep describedTransparent
  cases hp : slotPicture env a .baseColor with
  | none =>
    simp only [h2 hp]
    refine ⟨h1, m.img.albedo, m.img.alpha, ?_⟩
    cases hb : a.baseColor with
    | none => exact ⟨m.hasAlpha, rfl, rfl, rfl, by simp⟩
    | some c =>
      obtain ⟨c, f⟩ := c
      refine ⟨_, rfl, rfl, rfl, ?_⟩
      simp only [setAlbedoF]
      by_cases hlt : f < 1 <;> simp [hlt]
  | some b =>
    obtain ⟨h, e1, e2, e3, e4⟩ := h3 b hp
    simp only [e1]
    cases hal : alphaImage b with
    | none =>
      simp only [e3 hal, Option.bind_some, hal]
      refine ⟨h1, texOf env (loadSpectral env (a.tex .baseColor) true true s).1.spec (fun _ => 0) h, m.img.alpha, ?_⟩
      cases hb : a.baseColor with
      | none => exact ⟨m.hasAlpha, rfl, texOf_at env _ e2, rfl, by simp⟩
      | some c =>
        obtain ⟨c, f⟩ := c
        refine ⟨_, rfl, texOf_at env _ e2, rfl, ?_⟩
        simp only [setAlbedoF, setAlbedo]
        by_cases hlt : f < 1 <;> simp [hlt]
    | some i =>
      obtain ⟨k, e5, e6⟩ := e4 i hal
      simp only [e5, Option.bind_some, hal]
      refine ⟨h1, texOf env (loadSpectral env (a.tex .baseColor) true true s).1.spec (fun _ => 0) h, texOf env (loadSpectral env (a.tex .baseColor) true true s).1.mono 0 k, ?_⟩
      cases hb : a.baseColor with
      | none => exact ⟨true, rfl, texOf_at env _ e2, texOf_at env _ e6, by simp⟩
      | some c =>
        obtain ⟨c, f⟩ := c
        refine ⟨_, rfl, texOf_at env _ e2, texOf_at env _ e6, ?_⟩
        simp only [setAlbedoF, setAlbedo, setAlpha]
        by_cases hlt : f < 1 <;> simp [hlt]

theorem packed_slot {a : AiMaterial} (h : a.tex .roughness = a.tex .metalness) : packedSlot a = a.tex .roughness := by
  unfold packedSlot
  split_ifs
  · rfl
  · exact h.symm

theorem packed_ok {env : Env n} {mats : List AiMaterial} (hm : Plain env mats) {s : St n} (hs : Inv env mats s)
    {a : AiMaterial} (ha : a ∈ mats) (m : Mat n) (h0 : m.metallicF = 0) :
    Inv env mats (packedStep env a (s, m)).1 ∧ ∃ (X Y : Tex ℝ),
      (packedStep env a (s, m)).2 = { m with
        img := { m.img with roughness := X, metallic := Y }, roughnessF := a.roughness.getD m.roughnessF,
        metallicF := a.metallic.getD (if (slotPicture env a .metalness).isSome then 1 else 0) } ∧
      X.at' = ((slotPicture env a .roughness).map fun b => env.sample (b.image.map fun c => c.2.1)).getD m.img.roughness.at' ∧
      Y.at' = ((slotPicture env a .metalness).map fun b => env.sample (b.image.map fun c => c.2.2)).getD m.img.metallic.at' := by
  have hpk := hm.packed a ha
  have hsame : slotPicture env a .metalness = slotPicture env a .roughness := by unfold slotPicture; rw [hpk]
  obtain ⟨h1, h2, h3⟩ := load_vec hm hs ha .roughness false (Or.inl ⟨rfl, rfl⟩)
  unfold packedStep
  rw [packed_slot hpk, hsame]
  cases hp : slotPicture env a .roughness with
  | none =>
    simp only [h2 hp]
    refine ⟨h1, m.img.roughness, m.img.metallic, ?_, rfl, rfl⟩
    cases hr : a.roughness <;> cases hme : a.metallic <;> simp [setRoughnessF, setMetallicF, h0]
    rw [← h0]
  | some b =>
    obtain ⟨h, e1, e2⟩ := h3 b hp
    simp only [e1]
    obtain ⟨i1, i2, i3⟩ := split_ok h1 h _ (by simpa using e2)
    refine ⟨i1, texOf env _ 0 _, texOf env _ 0 _, ?_, texOf_at env _ i2, texOf_at env _ i3⟩
    cases hr : a.roughness <;> cases hme : a.metallic <;> simp [setRoughnessF, setMetallicF, setMetallic, setRoughness, h0]

theorem decodeNormal_eq (c : Rgb) : decodeNormal (toVec3 c) = normalOf c := by
  unfold decodeNormal normalOf toVec3
  simp only [mul_comm]

theorem normal_ok {env : Env n} {mats : List AiMaterial} (hm : Plain env mats) {s : St n} (hs : Inv env mats s)
    {a : AiMaterial} (ha : a ∈ mats) (m : Mat n) :
    Inv env mats (normalStep env a (s, m)).1 ∧ ∃ (X : Tex V3), (normalStep env a (s, m)).2 = { m with img := { m.img with normal := X } } ∧
      X.at' = ((slotPicture env a .normals).map fun b => env.sample (b.image.map normalOf)).getD m.img.normal.at' := by
  obtain ⟨h1, h2, h3⟩ := load_vec hm hs ha .normals true (Or.inr ⟨rfl, rfl⟩)
  unfold normalStep
  cases hp : slotPicture env a .normals with
  | none => simp only [h2 hp]; exact ⟨h1, m.img.normal, rfl, rfl⟩
  | some b =>
    obtain ⟨h, e1, e2⟩ := h3 b hp
    simp only [e1]
    refine ⟨h1, texOf env _ V3.zero h, rfl, ?_⟩
    rw [texOf_at env _ e2]
    simp only [if_true, Option.map_some, Option.getD_some]
    congr 1
    simp only [Img.map, decodeNormal_eq]

theorem emission_ok {env : Env n} {mats : List AiMaterial} (hm : Plain env mats) {s : St n} (hs : Inv env mats s)
    {a : AiMaterial} (ha : a ∈ mats) (m : Mat n) (h0 : m.emissiveF = fun _ => 0) :
    Inv env mats (emissionStep env a (s, m)).1 ∧ ∃ (X : Tex (Fin n → ℝ)),
      (emissionStep env a (s, m)).2 = { m with
        img := { m.img with emissive := X },
        emissiveF := (a.emissive.map env.conv).getD (if (slotPicture env a .emission).isSome then fun _ => 1 else fun _ => 0) } ∧
      X.at' = ((slotPicture env a .emission).map fun b => env.sample ((colour b).map env.conv)).getD m.img.emissive.at' := by
  obtain ⟨h1, h2, h3⟩ := load_emission hm hs ha
  unfold emissionStep
  cases hp : slotPicture env a .emission with
  | none =>
    simp only [h2 hp]
    refine ⟨h1, m.img.emissive, ?_, rfl⟩
    cases a.emissive <;> simp [setEmissiveF]
    rw [← h0]
  | some b =>
    obtain ⟨h, e1, e2⟩ := h3 b hp
    simp only [e1]
    refine ⟨h1, texOf env _ (fun _ => 0) h, ?_, texOf_at env _ e2⟩
    cases a.emissive <;> simp [setEmissiveF, setEmissive, h0]

theorem material_ok {env : Env n} (hf : NoAlphaFormats env) {mats : List AiMaterial} (hm : Plain env mats) {s : St n} (hs : Inv env mats s)
    {a : AiMaterial} (ha : a ∈ mats) : Inv env mats (processMaterial env a s).1 ∧ Looks env a (processMaterial env a s).2 := by
  unfold processMaterial
  obtain ⟨i1, X1, Y1, t, e1, a1, b1, c1⟩ := base_ok hf hm hs ha (Material.new .cookTorrance (sceneDefaults 0))
  generalize baseStep env a (s, Material.new .cookTorrance (sceneDefaults 0)) = r1 at *
  obtain ⟨s1, m1⟩ := r1
  obtain ⟨i2, X2, Y2, e2, a2, b2⟩ := packed_ok hm i1 ha m1 (by rw [show m1 = _ from e1]; rfl)
  generalize packedStep env a (s1, m1) = r2 at *
  obtain ⟨s2, m2⟩ := r2
  obtain ⟨i3, X3, e3, a3⟩ := normal_ok hm i2 ha m2
  generalize normalStep env a (s2, m2) = r3 at *
  obtain ⟨s3, m3⟩ := r3
  simp only [] at e1 e2 e3
  obtain ⟨i4, X4, e4, a4⟩ := emission_ok hm i3 ha m3 (by rw [e3, e2, e1]; rfl)
  refine ⟨i4, ?_⟩
  rw [e4]
  subst e1
  subst e2
  subst e3
  constructor
  · intro is
    simp only [shade, described, a1, b1, a2, b2, a4, Material.new, setBsdf, requirements, sceneDefaults, if_true]
    congr 1
    · funext i
      cases slotPicture env a .baseColor <;> rfl
    · cases slotPicture env a .roughness <;> rfl
    · cases slotPicture env a .metalness <;> rfl
    · cases (slotPicture env a .baseColor).bind alphaImage <;> rfl
    · funext i; simp
    · funext i
      cases slotPicture env a .emission <;> rfl
  · intro u v
    simp only [a3, describedNormal, Material.new, setBsdf, sceneDefaults]
    cases slotPicture env a .normals <;> rfl
  · rfl
  · simp only []
    rw [c1]
    simp [Material.new, setBsdf]
  · rfl
  · simp [Material.new, setBsdf, requirements]

theorem materials_ok {env : Env n} (hf : NoAlphaFormats env) {mats : List AiMaterial} (hm : Plain env mats) : ∀ (l : List AiMaterial),
    (∀ a ∈ l, a ∈ mats) → ∀ s, Inv env mats s → (processMaterials env l s).2.length = l.length ∧
    ∀ (i : ℕ) (a : AiMaterial), l[i]? = some a → ∃ m, (processMaterials env l s).2[i]? = some m ∧ Looks env a m := by
  intro l
  induction l with
  | nil => intro _ s _; simp [processMaterials]
  | cons a as ih =>
    intro hl s hs
    obtain ⟨h1, h2⟩ := material_ok hf hm hs (hl a (by simp))
    obtain ⟨h3, h4⟩ := ih (fun x hx => hl x (by simp [hx])) _ h1
    rw [processMaterials]
    refine ⟨by simp [h3], ?_⟩
    intro i x hi
    cases i with
    | zero =>
      simp only [List.getElem?_cons_zero, Option.some.injEq] at hi
      subst hi
      exact ⟨_, rfl, h2⟩
    | succ i => simpa using h4 i x (by simpa using hi)

/-- C110: if the file meets `Plain`, then whatever textures the scene already has, there is one material per material of the file, in
order, and each looks as its own description says. -/
theorem C110_materials_partial (env : Env n) (hf : NoAlphaFormats env) (mats : List AiMaterial) (hm : Plain env mats)
    (spec : List (Img (Fin n → ℝ))) (mono : List (Img ℝ)) (vec : List (Img V3)) :
    (processMaterials env mats (fresh spec mono vec)).2.length = mats.length ∧
    ∀ (i : ℕ) (a : AiMaterial), mats[i]? = some a →
      ∃ m, (processMaterials env mats (fresh spec mono vec)).2[i]? = some m ∧ Looks env a m :=
  materials_ok hf hm mats (fun _ h => h) _ (inv_fresh env mats spec mono vec)

/-! ## Textures already in the scene are untouched -/

theorem grow_loadSpectral (env : Env n) (tex : Option (Option Name)) (ra ic : Bool) (s : St n) :
    s.spec <+: (loadSpectral env tex ra ic s).1.spec ∧ s.mono <+: (loadSpectral env tex ra ic s).1.mono ∧ s.vec <+: (loadSpectral env tex ra ic s).1.vec := by
  unfold loadSpectral
  cases tex.join with
  | none => simp
  | some p =>
    simp only [loadSpectralAt]
    cases s.specCache p with
    | some h => simp
    | none =>
      cases readSpectral env p ra ic with
      | none => simp
      | some r => obtain ⟨i, al⟩ := r; cases al <;> simp [registerSpectral]

theorem grow_loadVec (env : Env n) (tex : Option (Option Name)) (isN : Bool) (s : St n) :
    s.spec <+: (loadVec env tex isN s).1.spec ∧ s.mono <+: (loadVec env tex isN s).1.mono ∧ s.vec <+: (loadVec env tex isN s).1.vec := by
  unfold loadVec
  cases tex.join with
  | none => simp
  | some p =>
    simp only [loadVecAt]
    cases s.vecCache p with
    | some h => simp
    | none => cases readVec env p <;> simp [registerVec]

/-- The lists of textures only grow. -/
def Grows (s t : St n) : Prop := s.spec <+: t.spec ∧ s.mono <+: t.mono ∧ s.vec <+: t.vec

theorem Grows.trans {s t u : St n} (h : Grows s t) (k : Grows t u) : Grows s u :=
  ⟨h.1.trans k.1, h.2.1.trans k.2.1, h.2.2.trans k.2.2⟩

theorem grow_split (s : St n) (h : ℕ) : Grows s (split s h).1 := by
  unfold split Grows
  split
  · simp
  · simp [List.append_assoc]

theorem grow_material (env : Env n) (a : AiMaterial) (s : St n) : Grows s (processMaterial env a s).1 := by
  unfold processMaterial
  have hb : ∀ x : St n × Mat n, Grows x.1 (baseStep env a x).1 := fun x => grow_loadSpectral env _ true true x.1
  have hp : ∀ x : St n × Mat n, Grows x.1 (packedStep env a x).1 := by
    intro x
    have h1 := grow_loadVec env (packedSlot a) false x.1
    unfold packedStep
    cases hr : (loadVec env (packedSlot a) false x.1).2 with
    | none => simp only [hr]; exact h1
    | some h => simp only [hr]; exact Grows.trans h1 (grow_split _ h)
  have hn : ∀ x : St n × Mat n, Grows x.1 (normalStep env a x).1 := fun x => grow_loadVec env _ true x.1
  have he : ∀ x : St n × Mat n, Grows x.1 (emissionStep env a x).1 := fun x => grow_loadSpectral env _ false false x.1
  exact Grows.trans (hb (s, _)) (Grows.trans (hp _) (Grows.trans (hn _) (he _)))

/-- C110, for every file: loading adds textures at the end of the scene's lists and changes none already there. -/
theorem C110_keeps (env : Env n) (mats : List AiMaterial) (s : St n) :
    s.spec <+: (processMaterials env mats s).1.spec ∧ s.mono <+: (processMaterials env mats s).1.mono ∧
    s.vec <+: (processMaterials env mats s).1.vec := by
  induction mats generalizing s with
  | nil => simp [processMaterials]
  | cons a as ih => rw [processMaterials]; exact Grows.trans (grow_material env a s) (ih _)

/-! ## Where it fails -/

/-- C110 fails: the base colour picture of any file is converted without linearising it when it is embedded and marked sRGB, although
the same picture on disk is linearised. -/
theorem C110_embedded (env : Env n) (p : Name) (data : List UInt8) (hint : List Char) (f : Fmt) (b : Bundle)
    (he : env.embedded p = some (.compressed data hint)) (hd : detect hint = some f) (hb : env.decodeMem f data = some b)
    (a : AiMaterial) (ha : a.tex .baseColor = some (some p)) (as : List AiMaterial)
    (spec : List (Img (Fin n → ℝ))) (mono : List (Img ℝ)) (vec : List (Img V3)) :
    ∃ m, (processMaterials env (a :: as) (fresh spec mono vec)).2[0]? = some m ∧ m.img.albedo.at' = env.sample (b.image.map env.conv) := by
  refine ⟨(processMaterial env a (fresh spec mono vec)).2, by rw [processMaterials]; rfl, ?_⟩
  have hr : readSpectral env p true true = some (b.image.map env.conv, keptAlpha true b.alpha) := by
    simp [readSpectral, he, hd, loadRgbBuffer, hb]
  have h1 : (processMaterial env a (fresh spec mono vec)).2.img.albedo =
      (baseStep env a (fresh spec mono vec, Material.new .cookTorrance (sceneDefaults 0))).2.img.albedo := by
    unfold processMaterial
    generalize baseStep env a (fresh spec mono vec, Material.new .cookTorrance (sceneDefaults 0)) = x
    have e1 : ∀ y : St n × Mat n, (packedStep env a y).2.img.albedo = y.2.img.albedo := by
      intro y; unfold packedStep
      generalize loadVec env (packedSlot a) false y.1 = r
      obtain ⟨q, _ | h⟩ := r <;> cases a.roughness <;> cases a.metallic <;> rfl
    have e2 : ∀ y : St n × Mat n, (normalStep env a y).2.img.albedo = y.2.img.albedo := by
      intro y; unfold normalStep
      generalize loadVec env (a.tex .normals) true y.1 = r
      obtain ⟨q, _ | h⟩ := r <;> rfl
    have e3 : ∀ y : St n × Mat n, (emissionStep env a y).2.img.albedo = y.2.img.albedo := by
      intro y; unfold emissionStep
      generalize loadSpectral env (a.tex .emission) false false y.1 = r
      obtain ⟨q, _ | h, _⟩ := r <;> cases a.emissive <;> rfl
    rw [e3, e2, e1]
  rw [h1]
  unfold baseStep
  simp only [ha, loadSpectral, Option.join, Option.bind_some, id, loadSpectralAt, fresh, hr]
  cases keptAlpha true b.alpha <;> cases a.baseColor <;> simp [registerSpectral, setAlbedo, setAlpha, setAlphaF, setAlbedoF, texOf]

theorem img_albedo (env : Env n) (a : AiMaterial) (s : St n) : (processMaterial env a s).2.img.albedo =
    (baseStep env a (s, Material.new .cookTorrance (sceneDefaults 0))).2.img.albedo := by
  unfold processMaterial
  generalize baseStep env a (s, Material.new .cookTorrance (sceneDefaults 0)) = x
  have e1 : ∀ y : St n × Mat n, (packedStep env a y).2.img.albedo = y.2.img.albedo := by
    intro y; unfold packedStep
    generalize loadVec env (packedSlot a) false y.1 = r
    obtain ⟨q, _ | h⟩ := r <;> cases a.roughness <;> cases a.metallic <;> rfl
  have e2 : ∀ y : St n × Mat n, (normalStep env a y).2.img.albedo = y.2.img.albedo := by
    intro y; unfold normalStep
    generalize loadVec env (a.tex .normals) true y.1 = r
    obtain ⟨q, _ | h⟩ := r <;> rfl
  have e3 : ∀ y : St n × Mat n, (emissionStep env a y).2.img.albedo = y.2.img.albedo := by
    intro y; unfold emissionStep
    generalize loadSpectral env (a.tex .emission) false false y.1 = r
    obtain ⟨q, _ | h, _⟩ := r <;> cases a.emissive <;> rfl
  rw [e3, e2, e1]

theorem img_split (env : Env n) (a : AiMaterial) (s : St n) :
    (processMaterial env a s).2.img.roughness = (packedStep env a (baseStep env a (s, Material.new .cookTorrance (sceneDefaults 0)))).2.img.roughness ∧
    (processMaterial env a s).2.img.metallic = (packedStep env a (baseStep env a (s, Material.new .cookTorrance (sceneDefaults 0)))).2.img.metallic := by
  unfold processMaterial
  generalize packedStep env a (baseStep env a (s, Material.new .cookTorrance (sceneDefaults 0))) = x
  have e2 : ∀ y : St n × Mat n, (normalStep env a y).2.img.roughness = y.2.img.roughness ∧ (normalStep env a y).2.img.metallic = y.2.img.metallic := by
    intro y; unfold normalStep
    generalize loadVec env (a.tex .normals) true y.1 = r
    obtain ⟨q, _ | h⟩ := r <;> exact ⟨rfl, rfl⟩
  have e3 : ∀ y : St n × Mat n, (emissionStep env a y).2.img.roughness = y.2.img.roughness ∧ (emissionStep env a y).2.img.metallic = y.2.img.metallic := by
    intro y; unfold emissionStep
    generalize loadSpectral env (a.tex .emission) false false y.1 = r
    obtain ⟨q, _ | h, _⟩ := r <;> cases a.emissive <;> exact ⟨rfl, rfl⟩
  rw [(e3 _).1, (e3 _).2, (e2 _).1, (e2 _).2]
  exact ⟨rfl, rfl⟩

/-- C110 fails: roughness and metallic always come from one picture.  A file with a roughness texture never uses its metalness
texture, and a file with only a metalness texture takes its roughness from it too. -/
theorem C110_one_picture (env : Env n) (a : AiMaterial) (hb : a.tex .baseColor = none) (p : Name) (b : Bundle) (hp : picture env p = some b)
    (hs : a.tex .roughness = some (some p) ∨ a.tex .roughness = none ∧ a.tex .metalness = some (some p)) (as : List AiMaterial)
    (spec : List (Img (Fin n → ℝ))) (mono : List (Img ℝ)) (vec : List (Img V3)) :
    ∃ m, (processMaterials env (a :: as) (fresh spec mono vec)).2[0]? = some m ∧
      m.img.roughness.at' = env.sample (b.image.map fun c => c.2.1) ∧ m.img.metallic.at' = env.sample (b.image.map fun c => c.2.2) := by
  refine ⟨(processMaterial env a (fresh spec mono vec)).2, by rw [processMaterials]; rfl, ?_⟩
  obtain ⟨h1, h2⟩ := img_split env a (fresh spec mono vec)
  rw [h1, h2]
  have hslot : packedSlot a = some (some p) := by
    unfold packedSlot
    rcases hs with h | ⟨h, h'⟩
    · simp [h]
    · simp [h, h']
  have hbase : (baseStep env a (fresh spec mono vec, Material.new .cookTorrance (sceneDefaults 0))).1 = fresh spec mono vec := by
    simp [baseStep, hb, loadSpectral]
  generalize baseStep env a (fresh spec mono vec, Material.new .cookTorrance (sceneDefaults 0)) = x at *
  obtain ⟨s, m⟩ := x
  simp only [] at hbase
  subst hbase
  have hl : loadVec env (packedSlot a) false (fresh spec mono vec) = registerVec (fresh spec mono vec) p false (b.image.map toVec3) := by
    rw [hslot]
    simp [loadVec, loadVecAt, fresh, readVec_eq, hp]
  unfold packedStep
  rw [hl]
  simp only [registerVec]
  obtain ⟨-, i2, i3⟩ := split_ok (env := env) (mats := []) (s := (registerVec (fresh spec mono vec) p false (b.image.map toVec3)).1)
    (by constructor <;> simp [registerVec, fresh, Used]) vec.length (b.image.map toVec3) (by simp [registerVec, fresh])
  have j2 := texOf_at env 0 i2
  have j3 := texOf_at env 0 i3
  cases a.roughness <;> cases a.metallic <;> exact ⟨j2, j3⟩

/-! ### A file in which one picture is used twice -/

/-- A directory with the picture `t.png`, one dark grey pixel, a quarter opaque, marked sRGB; and `e.png` embedded in the model. -/
def exEnv (embed : Bool) : Env 1 where
  conv := fun c _ => c.1
  embedded := fun _ => if embed then some (.compressed [] "png".toList) else none
  decodeMem := fun _ _ => some ⟨⟨1, 1, fun _ _ => (0.04, 0.04, 0.04)⟩, ⟨1, 1, fun _ _ => 0.25⟩, true⟩
  decodeFile := fun f _ => if f = .png then some ⟨⟨1, 1, fun _ _ => (0.04, 0.04, 0.04)⟩, ⟨1, 1, fun _ _ => 0.25⟩, true⟩ else none
  join := id
  exist := fun _ => true
  ext := fun _ => ".PNG".toList
  sample := fun i _ _ => i.px 0 0

/-- A material with a picture in one slot. -/
def exMaterial (sl : Slot) : AiMaterial :=
  { tex := fun x => if x = sl then some (some "t.png".toList) else none, baseColor := none, roughness := none, metallic := none, emissive := none }

/-- A point to look at. -/
def exPoint : Isect 1 := ⟨V3.zero, ⟨0, 0, 1⟩, ⟨0, 0, 1⟩, ⟨1, 0, 0⟩, ⟨0, 1, 0⟩, 0, 0, ⟨0, 0, 1⟩, fun _ => 1⟩

theorem ex_formats (b : Bool) : NoAlphaFormats (exEnv b) := by
  rintro p c (h | h) <;> simp [exEnv] at h

theorem ex_plain : Plain (exEnv false) [exMaterial .baseColor, exMaterial .baseColor] := by
  constructor <;> simp [Used, exMaterial, exEnv, picture]

example : detect ".PNG".toList = some .png := by decide

theorem ex_detect : detect ((exEnv false).ext ((exEnv false).join "t.png".toList)) = some .png := by
  show detect ".PNG".toList = _
  decide

theorem ex_picture : picture (exEnv false) "t.png".toList = some ⟨⟨1, 1, fun _ _ => (0.04, 0.04, 0.04)⟩, ⟨1, 1, fun _ _ => 0.25⟩, true⟩ := by
  unfold picture
  rw [ex_detect]
  simp [exEnv]

theorem ex_slot : slotPicture (exEnv false) (exMaterial .baseColor) .baseColor =
    some ⟨⟨1, 1, fun _ _ => (0.04, 0.04, 0.04)⟩, ⟨1, 1, fun _ _ => 0.25⟩, true⟩ := by
  unfold slotPicture
  rw [show ((exMaterial .baseColor).tex .baseColor).join = some "t.png".toList from rfl, Option.bind_some, ex_picture]

theorem ex_described : (described (exEnv false) (exMaterial .baseColor) exPoint).albedo 0 = 0.04 / 12.92 ∧
    (described (exEnv false) (exMaterial .baseColor) exPoint).opacity = 0.25 := by
  unfold described
  simp only [ex_slot]
  constructor
  · simp only [exMaterial, Option.map_some, lookup, colour, Img.map, exEnv, exPoint, Option.map_none, Option.getD_none, if_true]
    norm_num [ImageIO.srgbToLinear]
  · simp only [exMaterial, Option.bind_some, lookup, alphaImage, exEnv, exPoint, Option.map_none, Option.getD_none]
    norm_num

/-- Two materials sharing a picture: both get the linearised colour and the opacity. -/
example : ∃ m, (processMaterials (exEnv false) [exMaterial .baseColor, exMaterial .baseColor] (fresh [] [] [])).2[1]? = some m ∧
    (shade m exPoint).albedo 0 = 0.04 / 12.92 ∧ (shade m exPoint).opacity = 0.25 := by
  obtain ⟨m, h, l⟩ := (C110_materials_partial (exEnv false) (ex_formats _) _ ex_plain [] [] []).2 1 _ rfl
  exact ⟨m, h, by rw [l.shading]; exact ex_described.1, by rw [l.shading]; exact ex_described.2⟩

theorem ex_read : readSpectral (exEnv false) "t.png".toList false false = some (⟨1, 1, fun _ _ _ => 0.04⟩, none) := by
  have hl : loadRgbFile (exEnv false) "t.png".toList false = some ⟨⟨1, 1, fun _ _ => (0.04, 0.04, 0.04)⟩, ⟨0, 0, fun _ _ => 0⟩, true⟩ := by
    unfold loadRgbFile
    rw [show detect ((exEnv false).ext "t.png".toList) = some .png from ex_detect]
    simp [exEnv, Bundle.noAlpha]
  have hr : resolve (exEnv false) "t.png".toList = some "t.png".toList := rfl
  unfold readSpectral
  rw [show (exEnv false).embedded "t.png".toList = none from rfl]
  simp only [hr, Option.bind_some, hl]
  simp [linearise, Img.map, keptAlpha, exEnv]

theorem ex_first : (processMaterial (exEnv false) (exMaterial .emission) (fresh [] [] [])).1 =
    { fresh [⟨1, 1, fun _ _ _ => 0.04⟩] [] [] with specCache := Cache.emplace (fun _ => none) "t.png".toList 0 } := by
  have t1 : (exMaterial .emission).tex .baseColor = none := rfl
  have t2 : packedSlot (exMaterial .emission) = none := rfl
  have t3 : (exMaterial .emission).tex .normals = none := rfl
  have t4 : (exMaterial .emission).tex .emission = some (some "t.png".toList) := rfl
  simp only [processMaterial, baseStep, packedStep, normalStep, emissionStep, t1, t2, t3, t4, loadSpectral, loadVec, Option.join_none, Option.join_some,
    loadSpectralAt, ex_read, registerSpectral, fresh, List.nil_append, List.length_nil]

theorem ex_second : (processMaterials (exEnv false) [exMaterial .emission, exMaterial .baseColor] (fresh [] [] [])).2[1]? =
    some (setAlbedo (texOf (exEnv false) [⟨1, 1, fun _ _ _ => 0.04⟩] (fun _ => 0) 0) (Material.new .cookTorrance (sceneDefaults 0))) := by
  have t1 : (exMaterial .baseColor).tex .baseColor = some (some "t.png".toList) := rfl
  have t2 : packedSlot (exMaterial .baseColor) = none := rfl
  have t3 : (exMaterial .baseColor).tex .normals = none := rfl
  have t4 : (exMaterial .baseColor).tex .emission = none := rfl
  have c : Cache.emplace (fun _ => none) "t.png".toList 0 "t.png".toList = some 0 := emplace_self 0 rfl
  simp only [processMaterials, ex_first, List.getElem?_cons_succ, List.getElem?_cons_zero]
  simp only [processMaterial, baseStep, packedStep, normalStep, emissionStep, t1, t2, t3, t4, loadSpectral, loadVec, Option.join_none, Option.join_some,
    loadSpectralAt, fresh, c, if_true]
  rfl

/-- C110 fails: what a material looks like depends on the other materials of the file.  The picture of a base colour is linearised and
its alpha used when the material is loaded alone, but neither when an earlier material of the file emits light with the same picture. -/
theorem C110_order : ∃ (env : Env 1) (a e : AiMaterial) (m m' : Mat 1) (is : Isect 1), NoAlphaFormats env ∧
    (processMaterials env [a] (fresh [] [] [])).2[0]? = some m ∧ (processMaterials env [e, a] (fresh [] [] [])).2[1]? = some m' ∧
    Looks env a m ∧ (shade m' is).albedo ≠ (shade m is).albedo ∧ (shade m' is).opacity ≠ (shade m is).opacity ∧
    m.hasAlpha = true ∧ m'.hasAlpha = false := by
  obtain ⟨m, h, l⟩ := (C110_materials_partial (exEnv false) (ex_formats _) [exMaterial .baseColor]
    (by constructor <;> simp [Used, exMaterial, exEnv, picture]) [] [] []).2 0 _ rfl
  refine ⟨exEnv false, exMaterial .baseColor, exMaterial .emission, m, _, exPoint, ex_formats _, h, ex_second, l, ?_, ?_, ?_, rfl⟩
  · intro hc
    have := congrFun hc 0
    rw [l.shading, ex_described.1] at this
    norm_num [shade, setAlbedo, texOf, exEnv, exPoint, Material.new, setBsdf, requirements] at this
  · rw [l.shading, ex_described.2]
    norm_num [shade, setAlbedo, texOf, exEnv, exPoint, Material.new, setBsdf, requirements, sceneDefaults]
  · rw [l.transparent]
    left
    rw [ex_slot]
    simp [alphaImage]

theorem C110_violated : ¬ C110_full := by
  intro hfull
  obtain ⟨env, a, e, m, m', is, hf, -, h2, l, h3, -⟩ := C110_order
  have := hfull env hf [e, a] [] [] [] 1 a m' rfl h2
  apply h3
  rw [this.shading, l.shading]

theorem read_emission (env : Env n) (p : Name) (b : Bundle) (hp : picture env p = some b) :
    readSpectral env p false false = some (b.image.map env.conv, none) := by
  have : ∀ b' : Bundle, colour { b' with srgb := false } = b'.image := fun b' => by simp [colour]
  unfold readSpectral picture loadRgbBuffer resolve at *
  cases hm : env.embedded p with
  | none =>
    simp only [hm] at hp ⊢
    have key : ∀ q, (detect (env.ext q)).bind (fun f => env.decodeFile f q) = some b →
        (loadRgbFile env q false).map (fun b => ((linearise false b).image.map env.conv, keptAlpha false b.alpha)) = some (b.image.map env.conv, none) := by
      intro q hq
      unfold loadRgbFile
      cases hdt : detect (env.ext q) with
      | none => rw [hdt] at hq; cases hq
      | some f =>
        rw [hdt] at hq
        simp only [Option.bind_some] at hq ⊢
        rw [hq]
        cases f <;> simp [linearise, keptAlpha, Bundle.noAlpha]
    split_ifs at hp ⊢
    · exact key _ hp
    · exact key _ hp
  | some e =>
    cases e with
    | compressed data hint =>
      simp only [hm] at hp ⊢
      cases hdt : detect hint with
      | none => rw [hdt] at hp; cases hp
      | some f =>
        rw [hdt] at hp
        simp only [Option.bind_some] at hp ⊢
        rw [hp]
        simp [keptAlpha, Bundle.noAlpha]
    | raw w h t =>
      simp only [hm, Option.some.injEq] at hp ⊢
      subst hp
      simp [Img.map, texelRgb, keptAlpha, div_eq_mul_inv]

theorem specCache_split (s : St n) (h : ℕ) : (split s h).1.specCache = s.specCache := by
  unfold split; split <;> rfl

theorem specCache_vec (env : Env n) (tex : Option (Option Name)) (isN : Bool) (s : St n) : (loadVec env tex isN s).1.specCache = s.specCache := by
  unfold loadVec
  cases tex.join with
  | none => rfl
  | some p =>
    simp only [loadVecAt]
    cases s.vecCache p with
    | some h => rfl
    | none => cases readVec env p <;> rfl

theorem specCache_other (env : Env n) (tex : Option (Option Name)) (ra ic : Bool) (s : St n) (p : Name) (h : tex ≠ some (some p)) :
    (loadSpectral env tex ra ic s).1.specCache p = s.specCache p := by
  unfold loadSpectral
  cases ht : tex.join with
  | none => rfl
  | some q =>
    have hq : p ≠ q := by
      rintro rfl
      exact h (Option.join_eq_some_iff.1 ht)
    simp only [loadSpectralAt]
    cases s.specCache q with
    | some h => rfl
    | none =>
      cases readSpectral env q ra ic with
      | none => rfl
      | some r => obtain ⟨i, al⟩ := r; cases al <;> simp [registerSpectral, emplace_other _ _ hq]

/-- C110 fails: the emissive picture of any file is converted without linearising it, wherever it is stored. -/
theorem C110_emission (env : Env n) (p : Name) (b : Bundle) (hp : picture env p = some b) (a : AiMaterial)
    (ha : a.tex .emission = some (some p)) (hb : a.tex .baseColor ≠ some (some p)) (as : List AiMaterial)
    (spec : List (Img (Fin n → ℝ))) (mono : List (Img ℝ)) (vec : List (Img V3)) :
    ∃ m, (processMaterials env (a :: as) (fresh spec mono vec)).2[0]? = some m ∧ m.img.emissive.at' = env.sample (b.image.map env.conv) := by
  refine ⟨(processMaterial env a (fresh spec mono vec)).2, by rw [processMaterials]; rfl, ?_⟩
  unfold processMaterial
  have hc : (normalStep env a (packedStep env a (baseStep env a (fresh spec mono vec, Material.new .cookTorrance (sceneDefaults 0))))).1.specCache p = none := by
    have h1 : ∀ y : St n × Mat n, (normalStep env a y).1.specCache = y.1.specCache := fun y => specCache_vec env _ true y.1
    have h2 : ∀ y : St n × Mat n, (packedStep env a y).1.specCache = y.1.specCache := by
      intro y
      have := specCache_vec env (packedSlot a) false y.1
      unfold packedStep
      generalize loadVec env (packedSlot a) false y.1 = r at *
      obtain ⟨q, _ | h⟩ := r
      · exact this
      · simp only [specCache_split]; exact this
    rw [h1, h2]
    exact specCache_other env _ true true _ p hb
  generalize normalStep env a (packedStep env a (baseStep env a (fresh spec mono vec, Material.new .cookTorrance (sceneDefaults 0)))) = y at *
  unfold emissionStep
  simp only [ha, loadSpectral, Option.join_some, loadSpectralAt, hc, read_emission env p b hp, registerSpectral]
  cases a.emissive <;> simp [setEmissive, setEmissiveF, texOf]

/-- File formats: the recognised endings in any capitalisation, with or without the dot; TIFF and FITS are not recognised, so such
textures are dropped. -/
theorem C110_format (s : List Char) : (detect s = none ↔ ∀ e ∈ ["png", "jpg", "jpeg", "tga", "bmp", "hdr"],
      s.map Char.toLower ≠ e.toList ∧ s.map Char.toLower ≠ '.' :: e.toList) := by
  unfold detect
  generalize s.map Char.toLower = l
  cases l with
  | nil => simp
  | cons c t =>
    by_cases hc : c = '.'
    · subst hc
      simp
      split_ifs <;> simp_all <;> tauto
    · simp [hc]
      split_ifs <;> simp_all <;> tauto

example : detect ".tiff".toList = none := by decide

end
end Huira.Loader
