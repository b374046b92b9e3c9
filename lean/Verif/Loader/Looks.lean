import Verif.Loader.Materials
/-! # C110: proofs.  The caches change nothing when no picture has two roles. -/
set_option linter.unusedSimpArgs false
set_option linter.unusedVariables false
namespace Huira.Loader
noncomputable section
open Material Registry

variable {n : ℕ}

/-- What the caches and texture lists contain while loading. -/
structure Inv (env : Env n) (mats : List AiMaterial) (s : St n) : Prop where
  base : ∀ p h, Used mats .baseColor p → s.specCache p = some h → ∃ b, picture env p = some b ∧
    s.spec[(h : ℕ)]? = some ((colour b).map env.conv) ∧ (alphaImage b = none → s.monoCache (alphaKey p) = none) ∧
    ∀ i, alphaImage b = some i → ∃ a : ℕ, s.monoCache (alphaKey p) = some a ∧ s.mono[a]? = some i
  alpha : ∀ p, s.specCache p = none → s.monoCache (alphaKey p) = none
  emission : ∀ p h, Used mats .emission p → s.specCache p = some h → ∃ b, picture env p = some b ∧
    s.spec[(h : ℕ)]? = some ((colour b).map env.conv)
  packed : ∀ p h, Used mats .roughness p → s.vecCache p = some h → ∃ b, picture env p = some b ∧ s.vec[(h : ℕ)]? = some (b.image.map toVec3)
  normals : ∀ p h, Used mats .normals p → s.vecCache p = some h → ∃ b, picture env p = some b ∧
    s.vec[(h : ℕ)]? = some ((b.image.map toVec3).map decodeNormal)
  split : ∀ h : ℕ, (s.monoCache (roughKey h) = none ∧ s.monoCache (metalKey h) = none) ∨
    ∃ (img : Img V3) (r m : ℕ), s.vec[h]? = some img ∧ s.monoCache (roughKey h) = some r ∧ s.monoCache (metalKey h) = some m ∧
      s.mono[r]? = some (img.map fun v => v.y) ∧ s.mono[m]? = some (img.map fun v => v.z)

theorem inv_fresh (env : Env n) (mats : List AiMaterial) (spec : List (Img (Fin n → ℝ))) (mono : List (Img ℝ)) (vec : List (Img V3)) :
    Inv env mats (fresh spec mono vec) := by
  constructor <;> simp [fresh]

theorem old_append {α : Type} {l : List α} {h : ℕ} {x : α} (y : List α) (e : l[h]? = some x) : (l ++ y)[h]? = some x := by
  have := (List.getElem?_eq_some_iff.1 e).1
  rw [List.getElem?_append_left this, e]

theorem new_append {α : Type} (l : List α) (x : α) : (l ++ [x])[l.length]? = some x := by simp

theorem emplace_self {c : Cache} {k : Name} (v : ℕ) (h : c k = none) : c.emplace k v k = some v := by simp [Cache.emplace, h]

theorem emplace_other (c : Cache) {k x : Name} (v : ℕ) (h : x ≠ k) : c.emplace k v x = c x := by simp [Cache.emplace, h]

/-! ## Spectral textures -/

theorem inv_register {env : Env n} {mats : List AiMaterial} {s : St n} (hs : Inv env mats s) {p : Name} (hp : s.specCache p = none)
    {img : Img (Fin n → ℝ)} {al : Option (Img ℝ)} {b : Bundle} (hb : picture env p = some b) (hi : img = (colour b).map env.conv)
    (ha : Used mats .baseColor p → al = alphaImage b) : Inv env mats (registerSpectral s p img al).1 := by
  have hk := hs.alpha p hp
  cases al with
  | none =>
    simp only [registerSpectral]
    constructor
    · intro q h hq hc
      simp only [] at hc ⊢
      by_cases e : q = p
      · subst e
        rw [emplace_self _ hp] at hc
        obtain rfl := Option.some.inj hc
        refine ⟨b, hb, by rw [hi]; exact new_append _ _, fun _ => hk, fun i hi' => ?_⟩
        rw [← ha hq] at hi'; cases hi'
      · rw [emplace_other _ _ e] at hc
        obtain ⟨b', h1, h2, h3⟩ := hs.base q h hq hc
        exact ⟨b', h1, old_append _ h2, h3⟩
    · intro q hc
      simp only [] at hc ⊢
      by_cases e : q = p
      · subst e; exact hk
      · rw [emplace_other _ _ e] at hc; exact hs.alpha q hc
    · intro q h hq hc
      simp only [] at hc ⊢
      by_cases e : q = p
      · subst e
        rw [emplace_self _ hp] at hc
        obtain rfl := Option.some.inj hc
        exact ⟨b, hb, by rw [hi]; exact new_append _ _⟩
      · rw [emplace_other _ _ e] at hc
        obtain ⟨b', h1, h2⟩ := hs.emission q h hq hc
        exact ⟨b', h1, old_append _ h2⟩
    · exact hs.packed
    · exact hs.normals
    · exact hs.split
  | some a =>
    simp only [registerSpectral]
    constructor
    · intro q h hq hc
      by_cases e : q = p
      · subst e
        simp only [] at hc ⊢
        rw [emplace_self _ hp] at hc
        obtain rfl := Option.some.inj hc
        refine ⟨b, hb, by rw [hi]; exact new_append _ _, fun h' => ?_, fun i hi' => ?_⟩
        · rw [← ha hq] at h'; cases h'
        · rw [← ha hq] at hi'
          obtain rfl := Option.some.inj hi'
          exact ⟨s.mono.length, emplace_self _ hk, new_append _ _⟩
      · simp only [] at hc ⊢
        rw [emplace_other _ _ e] at hc
        obtain ⟨b', h1, h2, h3, h4⟩ := hs.base q h hq hc
        have e' : alphaKey q ≠ alphaKey p := fun h => e (alphaKey_inj h)
        rw [emplace_other _ _ e']
        exact ⟨b', h1, old_append _ h2, h3, fun i hi' => let ⟨a', x, y⟩ := h4 i hi'; ⟨a', x, old_append _ y⟩⟩
    · intro q hc
      simp only [] at hc ⊢
      by_cases e : q = p
      · subst e; rw [emplace_self _ hp] at hc; cases hc
      · rw [emplace_other _ _ e] at hc
        rw [emplace_other _ _ (fun h => e (alphaKey_inj h))]
        exact hs.alpha q hc
    · intro q h hq hc
      simp only [] at hc ⊢
      by_cases e : q = p
      · subst e
        rw [emplace_self _ hp] at hc
        obtain rfl := Option.some.inj hc
        exact ⟨b, hb, by rw [hi]; exact new_append _ _⟩
      · rw [emplace_other _ _ e] at hc
        obtain ⟨b', h1, h2⟩ := hs.emission q h hq hc
        exact ⟨b', h1, old_append _ h2⟩
    · exact hs.packed
    · exact hs.normals
    · intro h
      simp only []
      rw [emplace_other _ _ (alpha_ne_rough p h).symm, emplace_other _ _ (alpha_ne_metal p h).symm]
      rcases hs.split h with h' | ⟨im, r, m, h1, h2, h3, h4, h5⟩
      · exact Or.inl h'
      · exact Or.inr ⟨im, r, m, h1, h2, h3, old_append _ h4, old_append _ h5⟩

theorem load_base {env : Env n} (hf : NoAlphaFormats env) {mats : List AiMaterial} (hm : Plain env mats) {s : St n} (hs : Inv env mats s)
    {a : AiMaterial} (ha : a ∈ mats) :
    Inv env mats (loadSpectral env (a.tex .baseColor) true true s).1 ∧
    (slotPicture env a .baseColor = none → (loadSpectral env (a.tex .baseColor) true true s).2.1 = none) ∧
    ∀ b, slotPicture env a .baseColor = some b → ∃ h : ℕ, (loadSpectral env (a.tex .baseColor) true true s).2.1 = some h ∧
      (loadSpectral env (a.tex .baseColor) true true s).1.spec[h]? = some ((colour b).map env.conv) ∧
      (alphaImage b = none → (loadSpectral env (a.tex .baseColor) true true s).2.2 = none) ∧
      ∀ i, alphaImage b = some i → ∃ k : ℕ, (loadSpectral env (a.tex .baseColor) true true s).2.2 = some k ∧
        (loadSpectral env (a.tex .baseColor) true true s).1.mono[k]? = some i := by
  unfold loadSpectral slotPicture
  cases ht : (a.tex .baseColor).join with
  | none => simp [hs]
  | some p =>
    have hu : Used mats .baseColor p := ⟨a, ha, Option.join_eq_some_iff.1 ht⟩
    simp only [Option.bind_some]
    unfold loadSpectralAt
    cases hc : s.specCache p with
    | some h =>
      obtain ⟨b, h1, h2, h3, h4⟩ := hs.base p h hu hc
      simp only [if_pos]
      refine ⟨hs, fun h' => (by rw [h1] at h'; cases h'), fun b' hb' => ?_⟩
      rw [h1] at hb'
      obtain rfl := Option.some.inj hb'
      exact ⟨h, rfl, h2, h3, h4⟩
    | none =>
      rw [readSpectral_base hf p (fun b => hm.embedded p b hu)]
      cases hb : picture env p with
      | none => simp [hs]
      | some b =>
        simp only [Option.map_some]
        refine ⟨inv_register hs hc hb rfl (fun _ => rfl), fun h' => (by cases h'), fun b' hb' => ?_⟩
        obtain rfl := Option.some.inj hb'
        cases hal : alphaImage b with
        | none => exact ⟨_, rfl, new_append _ _, fun _ => rfl, fun i h => by cases h⟩
        | some al =>
          refine ⟨_, rfl, new_append _ _, fun h => (by cases h), fun i h => ?_⟩
          obtain rfl := Option.some.inj h
          exact ⟨_, rfl, new_append _ _⟩

theorem load_emission {env : Env n} {mats : List AiMaterial} (hm : Plain env mats) {s : St n} (hs : Inv env mats s)
    {a : AiMaterial} (ha : a ∈ mats) :
    Inv env mats (loadSpectral env (a.tex .emission) false false s).1 ∧
    (slotPicture env a .emission = none → (loadSpectral env (a.tex .emission) false false s).2.1 = none) ∧
    ∀ b, slotPicture env a .emission = some b → ∃ h : ℕ, (loadSpectral env (a.tex .emission) false false s).2.1 = some h ∧
      (loadSpectral env (a.tex .emission) false false s).1.spec[h]? = some ((colour b).map env.conv) := by
  unfold loadSpectral slotPicture
  cases ht : (a.tex .emission).join with
  | none => simp [hs]
  | some p =>
    have hu : Used mats .emission p := ⟨a, ha, Option.join_eq_some_iff.1 ht⟩
    simp only [Option.bind_some]
    unfold loadSpectralAt
    cases hc : s.specCache p with
    | some h =>
      obtain ⟨b, h1, h2⟩ := hs.emission p h hu hc
      refine ⟨hs, fun h' => (by rw [h1] at h'; cases h'), fun b' hb' => ?_⟩
      rw [h1] at hb'
      obtain rfl := Option.some.inj hb'
      exact ⟨h, rfl, h2⟩
    | none =>
      rw [readSpectral_emission p (fun b => hm.emission p b hu)]
      cases hb : picture env p with
      | none => simp [hs]
      | some b =>
        simp only [Option.map_some]
        refine ⟨inv_register hs hc hb rfl (fun h => absurd hu (hm.baseEmission p h)), fun h' => (by cases h'), fun b' hb' => ?_⟩
        obtain rfl := Option.some.inj hb'
        exact ⟨_, rfl, new_append _ _⟩

/-! ## Vector textures -/

theorem inv_registerVec {env : Env n} {mats : List AiMaterial} {s : St n} (hs : Inv env mats s) {p : Name} (hp : s.vecCache p = none)
    (isN : Bool) {b : Bundle} (hb : picture env p = some b) (h1 : Used mats .roughness p → isN = false) (h2 : Used mats .normals p → isN = true) :
    Inv env mats (registerVec s p isN (b.image.map toVec3)).1 := by
  unfold registerVec
  refine ⟨hs.base, hs.alpha, hs.emission, ?_, ?_, ?_⟩
  · intro q h hq hc
    simp only [] at hc ⊢
    by_cases e : q = p
    · subst e
      rw [emplace_self _ hp] at hc
      obtain rfl := Option.some.inj hc
      exact ⟨b, hb, by rw [h1 hq]; exact new_append _ _⟩
    · rw [emplace_other _ _ e] at hc
      obtain ⟨b', x, y⟩ := hs.packed q h hq hc
      exact ⟨b', x, old_append _ y⟩
  · intro q h hq hc
    simp only [] at hc ⊢
    by_cases e : q = p
    · subst e
      rw [emplace_self _ hp] at hc
      obtain rfl := Option.some.inj hc
      exact ⟨b, hb, by rw [h2 hq]; exact new_append _ _⟩
    · rw [emplace_other _ _ e] at hc
      obtain ⟨b', x, y⟩ := hs.normals q h hq hc
      exact ⟨b', x, old_append _ y⟩
  · intro h
    rcases hs.split h with h' | ⟨im, r, m, x, y⟩
    · exact Or.inl h'
    · exact Or.inr ⟨im, r, m, old_append _ x, y⟩

theorem load_vec {env : Env n} {mats : List AiMaterial} (hm : Plain env mats) {s : St n} (hs : Inv env mats s)
    {a : AiMaterial} (ha : a ∈ mats) (sl : Slot) (isN : Bool) (hsl : sl = .roughness ∧ isN = false ∨ sl = .normals ∧ isN = true) :
    Inv env mats (loadVec env (a.tex sl) isN s).1 ∧
    (slotPicture env a sl = none → (loadVec env (a.tex sl) isN s).2 = none) ∧
    ∀ b, slotPicture env a sl = some b → ∃ h : ℕ, (loadVec env (a.tex sl) isN s).2 = some h ∧
      (loadVec env (a.tex sl) isN s).1.vec[h]? = some (if isN then (b.image.map toVec3).map decodeNormal else b.image.map toVec3) := by
  unfold loadVec slotPicture
  cases ht : (a.tex sl).join with
  | none => simp [hs]
  | some p =>
    have hu : Used mats sl p := ⟨a, ha, Option.join_eq_some_iff.1 ht⟩
    simp only [Option.bind_some]
    unfold loadVecAt
    cases hc : s.vecCache p with
    | some h =>
      have : ∃ b, picture env p = some b ∧ s.vec[(h : ℕ)]? = some (if isN then (b.image.map toVec3).map decodeNormal else b.image.map toVec3) := by
        rcases hsl with ⟨rfl, rfl⟩ | ⟨rfl, rfl⟩
        · simpa using hs.packed p h hu hc
        · simpa using hs.normals p h hu hc
      obtain ⟨b, h1, h2⟩ := this
      refine ⟨hs, fun h' => (by rw [h1] at h'; cases h'), fun b' hb' => ?_⟩
      rw [h1] at hb'
      obtain rfl := Option.some.inj hb'
      exact ⟨h, rfl, h2⟩
    | none =>
      rw [readVec_eq p]
      cases hb : picture env p with
      | none => simp [hs]
      | some b =>
        simp only [Option.map_some]
        refine ⟨inv_registerVec hs hc isN hb ?_ ?_, fun h' => (by cases h'), fun b' hb' => ?_⟩
        · rcases hsl with ⟨rfl, rfl⟩ | ⟨rfl, rfl⟩
          · exact fun _ => rfl
          · exact fun h => absurd hu (hm.packedNormal p h)
        · rcases hsl with ⟨rfl, rfl⟩ | ⟨rfl, rfl⟩
          · exact fun h => absurd h (hm.packedNormal p hu)
          · exact fun _ => rfl
        · obtain rfl := Option.some.inj hb'
          exact ⟨_, rfl, new_append _ _⟩

theorem split_ok {env : Env n} {mats : List AiMaterial} {s : St n} (hs : Inv env mats s) (h : ℕ) (img : Img V3) (hi : s.vec[h]? = some img) :
    Inv env mats (split s h).1 ∧ (split s h).1.mono[(split s h).2.1]? = some (img.map fun v => v.y) ∧
    (split s h).1.mono[(split s h).2.2]? = some (img.map fun v => v.z) := by
  unfold split
  rcases hs.split h with ⟨hr, hmk⟩ | ⟨im, r, m, h1, h2, h3, h4, h5⟩
  · rw [hr, hmk]
    simp only [hi, Option.getD_some]
    have lk : ∀ k, k ≠ roughKey h → k ≠ metalKey h →
        ((s.monoCache.emplace (roughKey h) s.mono.length).emplace (metalKey h) (s.mono.length + 1)) k = s.monoCache k := by
      intro k a b
      rw [emplace_other _ _ b, emplace_other _ _ a]
    have l1 : ((s.monoCache.emplace (roughKey h) s.mono.length).emplace (metalKey h) (s.mono.length + 1)) (roughKey h) = some s.mono.length := by
      rw [emplace_other _ _ (rough_ne_metal h h), emplace_self _ hr]
    have l2 : ((s.monoCache.emplace (roughKey h) s.mono.length).emplace (metalKey h) (s.mono.length + 1)) (metalKey h) = some (s.mono.length + 1) := by
      rw [emplace_self]
      rw [emplace_other _ _ (rough_ne_metal h h).symm, hmk]
    have m1 : (s.mono ++ [img.map fun v => v.y] ++ [img.map fun v => v.z])[s.mono.length]? = some (img.map fun v => v.y) := by
      rw [List.append_assoc]; simp
    have m2 : (s.mono ++ [img.map fun v => v.y] ++ [img.map fun v => v.z])[s.mono.length + 1]? = some (img.map fun v => v.z) := by
      rw [List.append_assoc]; simp
    refine ⟨⟨?_, ?_, hs.emission, hs.packed, hs.normals, ?_⟩, m1, m2⟩
    · intro q k hq hc
      obtain ⟨b, x, y, z, w⟩ := hs.base q k hq hc
      simp only [lk _ (alpha_ne_rough q h) (alpha_ne_metal q h)]
      exact ⟨b, x, y, z, fun i hi' => let ⟨a', x, y⟩ := w i hi'; ⟨a', x, by rw [List.append_assoc]; exact old_append _ y⟩⟩
    · intro q hc
      simp only [lk _ (alpha_ne_rough q h) (alpha_ne_metal q h)]
      exact hs.alpha q hc
    · intro k
      simp only []
      by_cases e : k = h
      · subst e
        exact Or.inr ⟨img, _, _, hi, l1, l2, m1, m2⟩
      · rw [lk _ (fun x => e (roughKey_inj x)) (rough_ne_metal k h), lk _ (rough_ne_metal h k).symm (fun x => e (metalKey_inj x))]
        rcases hs.split k with h' | ⟨im, r, m, h1, h2, h3, h4, h5⟩
        · exact Or.inl h'
        · exact Or.inr ⟨im, r, m, h1, h2, h3, by rw [List.append_assoc]; exact old_append _ h4, by rw [List.append_assoc]; exact old_append _ h5⟩
  · rw [h2, h3]
    rw [hi] at h1
    obtain rfl := Option.some.inj h1
    exact ⟨hs, h4, h5⟩

end
end Huira.Loader
