import Verif.Materials.MaterialProps
import Verif.Materials.BsdfProps

/-!
# Evaluating a material's textures at a surface point (C92, C94)
-/

set_option linter.unusedSimpArgs false
set_option linter.unusedVariables false

namespace Huira.Material

noncomputable section
open Classical Huira.Sampling Huira.Bsdf V3

variable {n : ℕ}

/-! ## C92: leaving out the textures a model does not need is sound -/

/-- The same material with every texture evaluated. -/
def evalAll (m : Mat n) : Mat n := { m with evalAlbedo := true, evalMetallic := true, evalRoughness := true, evalNormal := true }

/-- Two parameter sets agree on what a model says it reads. -/
structure AgreeOn (r : Reqs) (p q : Params n) : Prop where
  albedo : r.albedo = true → p.albedo = q.albedo
  roughness : r.roughness = true → p.roughness = q.roughness
  metallic : r.metallic = true → p.metallic = q.metallic

/-- **C92.**  A reflectance model's value, density and samples depend only on the parameters its `requirements` name. -/
theorem C92_declared (k : Kind) (f g : Frame) (p q : Params n) (h : AgreeOn (requirements k) p q)
    (hf : (requirements k).normal = true → f = g) (wo wi : V3) (u1 u2 : ℝ) :
    k.eval wo wi f p = k.eval wo wi g q ∧ k.pdf wo wi f p = k.pdf wo wi g q ∧
    k.sample wo f p u1 u2 = k.sample wo g q u1 u2 := by
  obtain ⟨ha, hr, hm⟩ := h
  cases k with
  | lambertian =>
    obtain rfl := hf rfl
    have ha := ha rfl
    have e : ∀ w, lambertianEval wo w f p = lambertianEval wo w f q := fun w => by funext i; simp only [lambertianEval, ha]
    simp [Kind.eval, Kind.pdf, Kind.sample, e, lambertianSample, ha, noSample]
  | lommelSeeliger =>
    obtain rfl := hf rfl
    have ha := ha rfl
    have e : ∀ w, lommelEval wo w f p = lommelEval wo w f q := fun w => by funext i; simp only [lommelEval, ha]
    simp [Kind.eval, Kind.pdf, Kind.sample, e, lommelSample, ha, noSample]
  | mcEwen =>
    obtain rfl := hf rfl
    have ha := ha rfl
    have e : ∀ w, mcEwenEval wo w f p = mcEwenEval wo w f q := fun w => by funext i; simp only [mcEwenEval, ha]
    simp [Kind.eval, Kind.pdf, Kind.sample, e, cosineSample, noSample]
  | orenNayar =>
    obtain rfl := hf rfl
    have ha := ha rfl
    have hr := hr rfl
    have e : ∀ w, orenEval wo w f p = orenEval wo w f q := fun w => by funext i; simp only [orenEval, ha, hr]
    simp [Kind.eval, Kind.pdf, Kind.sample, e, cosineSample, noSample]
  | hapke h B0 b c =>
    obtain rfl := hf rfl
    have ha := ha rfl
    have e : ∀ w, hapkeEval h B0 b c wo w f p = hapkeEval h B0 b c wo w f q := fun w => by funext i; simp only [hapkeEval, ha]
    simp [Kind.eval, Kind.pdf, Kind.sample, e, cosineSample, noSample]
  | cookTorrance =>
    obtain rfl := hf rfl
    have e : p = q := by
      obtain ⟨p1, p2, p3⟩ := p
      obtain ⟨q1, q2, q3⟩ := q
      have := ha rfl
      have := hr rfl
      have := hm rfl
      simp_all
    subst e
    exact ⟨rfl, rfl, rfl⟩
  | null => exact ⟨rfl, rfl, rfl⟩

/-- **C92.**  Whatever calls were made on a material, evaluating only the textures its model asks for gives the same
reflectance, density and samples as evaluating all of them. -/
theorem C92_skipping (k : Kind) (d : Images n) (ops : List (Op n)) (is : Isect n) (e e' : Eval n)
    (h : evaluate (run k d ops) is = some e) (h' : evaluate (evalAll (run k d ops)) is = some e') (wo wi : V3) (u1 u2 : ℝ) :
    bsdfEval (run k d ops) wo wi e = bsdfEval (run k d ops) wo wi e' ∧
    bsdfPdf (run k d ops) wo wi e = bsdfPdf (run k d ops) wo wi e' ∧
    bsdfSample (run k d ops) wo e u1 u2 = bsdfSample (run k d ops) wo e' u1 u2 ∧
    e.params.opacity = e'.params.opacity ∧ e.params.transmission = e'.params.transmission ∧
    e.params.emission = e'.params.emission := by
  have hfl := (C71_history k d ops).flags
  generalize run k d ops = m at *
  rw [Reqs.mk.injEq] at hfl
  obtain ⟨f1, f2, f3, f4⟩ := hfl
  simp only [evaluate, Option.bind_eq_some_iff, Option.map_eq_some_iff] at h h'
  obtain ⟨ns, hn, t, ht, rfl⟩ := h
  obtain ⟨ns', hn', t', ht', rfl⟩ := h'
  have key := C92_declared m.bsdf
    (Eval.frame ⟨shade m is, { is with normalS := ns, tangent := t, bitangent := V3.cross ns t }⟩)
    (Eval.frame ⟨shade (evalAll m) is, { is with normalS := ns', tangent := t', bitangent := V3.cross ns' t' }⟩)
    (Eval.bparams ⟨shade m is, { is with normalS := ns, tangent := t, bitangent := V3.cross ns t }⟩)
    (Eval.bparams ⟨shade (evalAll m) is, { is with normalS := ns', tangent := t', bitangent := V3.cross ns' t' }⟩)
    ⟨fun hh => by simp [Eval.bparams, shade, evalAll, f1, hh], fun hh => by simp [Eval.bparams, shade, evalAll, f3, hh],
      fun hh => by simp [Eval.bparams, shade, evalAll, f2, hh]⟩
    (fun hh => by
      have e1 : shadingNormal m is = shadingNormal (evalAll m) is := by simp [shadingNormal, evalAll, f4, hh]
      rw [e1, hn'] at hn
      obtain rfl := Option.some.inj hn
      rw [ht'] at ht
      obtain rfl := Option.some.inj ht
      rfl) wo wi u1 u2
  exact ⟨key.1, key.2.1, key.2.2, rfl, rfl, rfl⟩

/-! ## C94: what `evaluate` returns -/

/-- **C94.**  Every parameter is the texture at the point times its factor, and for the albedo times the vertex colour;
parameters the model does not read keep their defaults.  Position, geometric normal, texture coordinates, outgoing
direction and vertex colour are handed on. -/
theorem C94_values (k : Kind) (d : Images n) (ops : List (Op n)) (is : Isect n) (e : Eval n)
    (h : evaluate (run k d ops) is = some e) :
    (∀ i, e.params.albedo i = if (requirements (bsdfAfter k ops)).albedo
      then (imageAfter d.albedo (evs albedoEv ops)).at' is.u is.v i * givenFactor (fun _ => 1) (evs albedoEv ops) i *
        is.vertexAlbedo i else 1) ∧
    (e.params.metallic = if (requirements (bsdfAfter k ops)).metallic
      then (imageAfter d.metallic (evs metallicEv ops)).at' is.u is.v * liftedFactor 0 0 1 (evs metallicEv ops) else 0) ∧
    (e.params.roughness = if (requirements (bsdfAfter k ops)).roughness
      then (imageAfter d.roughness (evs roughnessEv ops)).at' is.u is.v * givenFactor 1 (evs roughnessEv ops) else 0.5) ∧
    e.params.opacity = (imageAfter d.alpha (evs alphaEv ops)).at' is.u is.v * givenFactor 1 (evs alphaEv ops) ∧
    (∀ i, e.params.transmission i = (imageAfter d.transmission (evs transmissionEv ops)).at' is.u is.v i *
      liftedFactor (fun _ => 0) (fun _ => 0) (fun _ => 1) (evs transmissionEv ops) i) ∧
    (∀ i, e.params.emission i = (imageAfter d.emissive (evs emissiveEv ops)).at' is.u is.v i *
      liftedFactor (fun _ => 0) (fun _ => 0) (fun _ => 1) (evs emissiveEv ops) i) ∧
    e.isect.position = is.position ∧ e.isect.normalG = is.normalG ∧ e.isect.u = is.u ∧ e.isect.v = is.v ∧
    e.isect.wo = is.wo ∧ e.isect.vertexAlbedo = is.vertexAlbedo := by
  obtain ⟨h1, h2, h3, h4, h5, h6, h7, h8, h9, h10, h11⟩ := C71_history k d ops
  generalize run k d ops = m at *
  rw [h8, Reqs.mk.injEq] at h11
  obtain ⟨f1, f2, f3, f4⟩ := h11
  simp only [evaluate, Option.bind_eq_some_iff, Option.map_eq_some_iff] at h
  obtain ⟨ns, hn, t, ht, rfl⟩ := h
  refine ⟨fun i => ?_, ?_, ?_, ?_, fun i => ?_, fun i => ?_, rfl, rfl, rfl, rfl, rfl, rfl⟩
  · simp only [shade, f1, ← h1.1, ← h1.2]; split_ifs <;> rfl
  · simp only [shade, f2, ← h3.1, ← h3.2]
  · simp only [shade, f3, ← h4.1, ← h4.2]
  · simp only [shade, ← h2.1, ← h2.2]
  · simp only [shade, ← h6.1, ← h6.2]
  · simp only [shade, ← h7.1, ← h7.2]

theorem normalize?_some {a t : V3} (h : V3.normalize? a = some t) : dot t t = 1 ∧ a ≠ V3.zero ∧ t = V3.normalize a := by
  unfold V3.normalize? at h
  split_ifs at h with h0
  obtain rfl := Option.some.inj h
  have hz : a ≠ V3.zero := fun e => h0 (dot_self_eq_zero.mpr e)
  exact ⟨dot_normalize hz, hz, rfl⟩

theorem normalize?_of_ne {a : V3} (h : a ≠ V3.zero) : V3.normalize? a = some (V3.normalize a) := by
  unfold V3.normalize?
  rw [if_neg (fun e => h (dot_self_eq_zero.mp e))]

/-- **C94.**  The frame handed to the reflectance model is orthonormal and right handed, for every texture and factor, when
the surface's own shading normal is a unit vector and the computation is defined. -/
theorem C94_frame (m : Mat n) (is : Isect n) (e : Eval n) (h : evaluate m is = some e) (hn : dot is.normalS is.normalS = 1) :
    Orthonormal e.isect.tangent e.isect.bitangent e.isect.normalS := by
  simp only [evaluate, Option.bind_eq_some_iff, Option.map_eq_some_iff] at h
  obtain ⟨ns, hns, t, ht, rfl⟩ := h
  have hu : dot ns ns = 1 := by
    unfold shadingNormal at hns
    split_ifs at hns with h1 h2
    · simp only [perturb, Option.bind_eq_some_iff] at hns
      obtain ⟨a, _, s, _, hs⟩ := hns
      exact (normalize?_some hs).1
    · obtain rfl := Option.some.inj hns; exact hn
    · obtain rfl := Option.some.inj hns; exact hn
  obtain ⟨htt, hz, hte⟩ := normalize?_some ht
  have htn : dot t ns = 0 := by
    rw [hte, normalize_eq, dot_smul_left]
    have : dot (is.tangent - (dot is.tangent ns : ℝ) * ns) ns = 0 := by
      have e1 : dot (is.tangent - (dot is.tangent ns : ℝ) * ns) ns = dot is.tangent ns - dot is.tangent ns * dot ns ns := by
        simp [dot]; ring
      rw [e1, hu]; ring
    rw [this]; ring
  clear hte ht hns hn
  obtain ⟨t1, t2, t3⟩ := t
  obtain ⟨n1, n2, n3⟩ := ns
  simp only [dot] at htt htn hu
  constructor <;> simp only [dot, cross, V3.mk.injEq] <;> (try refine ⟨?_, ?_, ?_⟩) <;> grind

/-- **C94.**  With an orthonormal surface frame and a normal map whose third component is positive — every tangent space
normal map — the evaluation is defined, and the shading normal is on the same side as the unperturbed one. -/
theorem C94_defined (m : Mat n) (is : Isect n) (hf : Orthonormal is.tangent is.bitangent is.normalS)
    (hz : 0 < (m.img.normal.at' is.u is.v).z) :
    ∃ e, evaluate m is = some e ∧ 0 < dot e.isect.normalS is.normalS := by
  have htz : is.tangent ≠ V3.zero := by
    intro e; have := hf.tt; rw [e] at this; simp [dot, V3.zero] at this
  -- the shading normal exists, and points away from the tangent
  have key : ∃ ns, shadingNormal m is = some ns ∧ 0 < dot ns is.normalS ∧ dot ns ns = 1 := by
    unfold shadingNormal
    split_ifs with h1
    · set a := m.img.normal.at' is.u is.v with ha
      have ha0 : a ≠ V3.zero := by intro e; rw [e] at hz; simp [V3.zero] at hz
      have hbz : 0 < (V3.normalize a).z := by
        have := len_pos ha0
        simp only [normalize_eq, hmul_z]; positivity
      set b : V3 := ⟨(V3.normalize a).x * m.normalF, (V3.normalize a).y * m.normalF, (V3.normalize a).z⟩ with hb
      have hb0 : b ≠ V3.zero := by
        intro e; have := congrArg V3.z e; simp [hb, V3.zero] at this; linarith
      have hsz : 0 < (V3.normalize b).z := by
        have := len_pos hb0
        have hz' : 0 < b.z := hbz
        simp only [normalize_eq, hmul_z]; positivity
      set s := V3.normalize b with hs
      set c : V3 := (s.x * is.tangent + s.y * is.bitangent) + s.z * is.normalS with hc
      have hcn : dot c is.normalS = s.z := by
        have e1 := hf.tn; have e2 := hf.bn; have e3 := hf.nn
        have : dot c is.normalS = s.x * dot is.tangent is.normalS + s.y * dot is.bitangent is.normalS +
          s.z * dot is.normalS is.normalS := by simp [hc, dot]; ring
        rw [this, e1, e2, e3]; ring
      have hc0 : c ≠ V3.zero := by
        intro e; rw [e] at hcn; simp [dot, V3.zero] at hcn; linarith
      refine ⟨V3.normalize c, ?_, ?_, dot_normalize hc0⟩
      · simp only [perturb, ← ha, normalize?_of_ne ha0, Option.bind_some, ← hb, normalize?_of_ne hb0, ← hs, ← hc,
          normalize?_of_ne hc0]
      · have := len_pos hc0
        rw [normalize_eq, dot_smul_left, hcn]; positivity
    · exact ⟨_, rfl, by rw [hf.nn]; norm_num, hf.nn⟩
  obtain ⟨ns, h1, h2, h3⟩ := key
  have hne : is.tangent - (dot is.tangent ns : ℝ) * ns ≠ V3.zero := by
    intro e
    -- otherwise the tangent is a multiple of the new normal, which has a component along the old one
    have e1 : dot (is.tangent - (dot is.tangent ns : ℝ) * ns) is.normalS =
      dot is.tangent is.normalS - dot is.tangent ns * dot ns is.normalS := by simp [dot]; ring
    rw [e, hf.tn] at e1
    have e2 : dot is.tangent ns = 0 := by
      have e0 : dot V3.zero is.normalS = 0 := by simp [dot, V3.zero]
      have e3 : dot is.tangent ns * dot ns is.normalS = 0 := by rw [e0] at e1; linarith
      rcases mul_eq_zero.mp e3 with h | h
      · exact h
      · linarith
    rw [e2] at e
    apply htz
    have x1 := congrArg V3.x e
    have x2 := congrArg V3.y e
    have x3 := congrArg V3.z e
    simp only [sub_x, sub_y, sub_z, hmul_x, hmul_y, hmul_z, zero_mul, sub_zero] at x1 x2 x3
    ext
    · exact x1
    · exact x2
    · exact x3
  have h4 := evaluate.eq_1 m is
  rw [h1, Option.bind_some, normalize?_of_ne hne, Option.map_some] at h4
  exact ⟨_, h4, h2⟩

/-- **C94, the promise in full**: the evaluation is defined for every surface with a unit shading normal. -/
def C94_full : Prop := ∀ (k : Kind) (ops : List (Op 1)) (is : Isect 1), dot is.normalS is.normalS = 1 →
  ∃ e, evaluate (run k (sceneDefaults 0) ops) is = some e

/-- **C94 does not hold in full**: on a surface without tangents (a mesh without tangent data passes zero) the tangent is
normalised anyway, giving NaN whatever the material is. -/
theorem C94_violated_no_tangent (m : Mat n) (is : Isect n) (h : is.tangent = V3.zero) : evaluate m is = none := by
  have e : ∀ ns : V3, V3.normalize? (is.tangent - (dot is.tangent ns : ℝ) * ns) = none := by
    intro ns
    have : is.tangent - (dot is.tangent ns : ℝ) * ns = V3.zero := by
      rw [h]; ext <;> simp [dot, V3.zero]
    rw [this]; simp [V3.normalize?, dot, V3.zero]
  unfold evaluate
  cases shadingNormal m is with
  | none => rfl
  | some ns => simp [e]

theorem C94_violated : ¬ C94_full := by
  intro h
  obtain ⟨e, he⟩ := h .lambertian [] ⟨V3.zero, V3.zero, ⟨0, 0, 1⟩, V3.zero, V3.zero, 0, 0, V3.zero, fun _ => 1⟩ (by simp [dot])
  rw [C94_violated_no_tangent _ _ rfl] at he
  simp at he

/-- **C94.**  A new material of a scene: the albedo is the vertex colour, nothing is transparent, transmitting, emitting or
metallic, the roughness is one (not the one half the documentation gives), and the surface frame is unchanged. -/
theorem C94_new (k : Kind) (id : ℕ) (is : Isect n) (hf : Orthonormal is.tangent is.bitangent is.normalS) :
    ∃ e, evaluate (new k (sceneDefaults id)) is = some e ∧ e.isect = is ∧
      e.params.albedo = (if k = .null then fun _ => 1 else is.vertexAlbedo) ∧ e.params.opacity = 1 ∧ e.params.metallic = 0 ∧
      e.params.roughness = (if k = .cookTorrance ∨ k = .orenNayar then 1 else 0.5) ∧ (∀ i, e.params.transmission i = 0) ∧
      (∀ i, e.params.emission i = 0) := by
  have hN : V3.normalize ⟨0, 0, 1⟩ = (⟨0, 0, 1⟩ : V3) := by ext <;> simp [normalize_eq, len, dot]
  have h01 : (⟨0, 0, 1⟩ : V3) ≠ V3.zero := by intro e; have := congrArg V3.z e; simp [V3.zero] at this
  have hnn : is.normalS ≠ V3.zero := by intro e; have := hf.nn; rw [e] at this; simp [dot, V3.zero] at this
  have htt : is.tangent ≠ V3.zero := by intro e; have := hf.tt; rw [e] at this; simp [dot, V3.zero] at this
  have hunit : ∀ v : V3, dot v v = 1 → V3.normalize v = v := by
    intro v hv; rw [normalize_eq, len, hv]; ext <;> simp
  have hns : shadingNormal (new k (sceneDefaults id)) is = some is.normalS := by
    unfold shadingNormal
    split_ifs with h1
    · have e1 : ((0 : ℝ) * is.tangent + (0 : ℝ) * is.bitangent) + (1 : ℝ) * is.normalS = is.normalS := by ext <;> simp
      simp only [perturb, new, setBsdf, sceneDefaults, normalize?_of_ne h01, hN, Option.bind_some, zero_mul, e1,
        normalize?_of_ne hnn, hunit _ hf.nn]
    · rfl
  have ht0 : is.tangent - (dot is.tangent is.normalS : ℝ) * is.normalS = is.tangent := by
    rw [hf.tn]; ext <;> simp
  have hb : V3.cross is.normalS is.tangent = is.bitangent := by
    obtain ⟨tt, bb, nn, tb, tn, bn, right⟩ := hf
    have hx := congrArg V3.x right
    have hy := congrArg V3.y right
    have hz := congrArg V3.z right
    simp only [cross, dot] at *
    ext <;> simp only <;> grind
  refine ⟨⟨shade (new k (sceneDefaults id)) is, is⟩, ?_, rfl, ?_, ?_, ?_, ?_, ?_, ?_⟩
  · simp only [evaluate, hns, Option.bind_some, ht0, normalize?_of_ne htt, hunit _ hf.tt, Option.map_some, hb]
  · cases k <;> simp [shade, new, setBsdf, requirements, sceneDefaults]
  · simp [shade, new, setBsdf, sceneDefaults]
  · simp [shade, new, setBsdf, sceneDefaults]
  · cases k <;> simp [shade, new, setBsdf, requirements, sceneDefaults]
  · simp [shade, new, setBsdf, sceneDefaults]
  · simp [shade, new, setBsdf, sceneDefaults]

/-- An orthonormal frame with a tilted normal map meets the hypotheses of `C94_defined`. -/
example : ∃ e, evaluate (run (n := 1) .cookTorrance (sceneDefaults 0) [.setNormal ⟨7, fun _ _ => ⟨0.3, -0.2, 0.9⟩⟩])
    ⟨V3.zero, ⟨0, 0, 1⟩, ⟨0, 0, 1⟩, ⟨1, 0, 0⟩, ⟨0, 1, 0⟩, 0.5, 0.5, ⟨0, 0, 1⟩, fun _ => 1⟩ = some e := by
  obtain ⟨e, he, _⟩ := C94_defined (run (n := 1) .cookTorrance (sceneDefaults 0) [.setNormal ⟨7, fun _ _ => ⟨0.3, -0.2, 0.9⟩⟩])
    ⟨V3.zero, ⟨0, 0, 1⟩, ⟨0, 0, 1⟩, ⟨1, 0, 0⟩, ⟨0, 1, 0⟩, 0.5, 0.5, ⟨0, 0, 1⟩, fun _ => 1⟩
    (by constructor <;> simp [dot, cross]) (by simp [run, apply, setNormal]; norm_num)
  exact ⟨e, he⟩

end
end Huira.Material
