import Verif.Materials.MaterialModel
import Verif.Materials.FrameProps
import Mathlib.Tactic

/-!
# Materials: setters, resets, texture evaluation (C71, C92, C94)
-/

set_option linter.unusedSimpArgs false
set_option linter.unusedVariables false

namespace Huira.Material

noncomputable section
open Classical Huira.Sampling Huira.Bsdf V3

variable {n : ℕ}

/-! ## Specification: what a slot holds after a history -/

/-- What a call means for one slot: an image, a factor, or a reset. -/
inductive Ev (α β : Type)
  | img (a : α)
  | fac (b : β)
  | reset

/-- The image of a slot, from the calls made on it (newest first): the newest image since the last reset, otherwise the
default. -/
def imageAfter {α β : Type} (d : α) : List (Ev α β) → α
  | [] => d
  | .img a :: _ => a
  | .fac _ :: r => imageAfter d r
  | .reset :: _ => d

/-- The newest factor given since the last reset, otherwise the default; images are ignored. -/
def givenFactor {α β : Type} (d : β) : List (Ev α β) → β
  | [] => d
  | .img _ :: r => givenFactor d r
  | .fac b :: _ => b
  | .reset :: _ => d

/-- Is an image given after the newest factor or reset? -/
def imageIsNewer {α β : Type} : List (Ev α β) → Prop
  | .img _ :: _ => True
  | _ => False

/-- The factor of a slot whose images switch a zero factor to `one`. -/
def liftedFactor {α β : Type} (d zero one : β) (evs : List (Ev α β)) : β :=
  if imageIsNewer evs ∧ givenFactor d evs = zero then one else givenFactor d evs

/-- Is there, since the last reset, an image or a factor below one? -/
def alphaUsed : List (Ev (Tex ℝ) ℝ) → Prop
  | [] => False
  | .img _ :: _ => True
  | .fac b :: r => b < 1 ∨ alphaUsed r
  | .reset :: _ => False

/-- What a call means for each slot. -/
def albedoEv : Op n → Option (Ev (Tex (Fin n → ℝ)) (Fin n → ℝ))
  | .setAlbedo t => some (.img t) | .setAlbedoF f => some (.fac f) | .resetAlbedo => some .reset | _ => none
def alphaEv : Op n → Option (Ev (Tex ℝ) ℝ)
  | .setAlpha t => some (.img t) | .setAlphaF f => some (.fac f) | .resetAlpha => some .reset | _ => none
def metallicEv : Op n → Option (Ev (Tex ℝ) ℝ)
  | .setMetallic t => some (.img t) | .setMetallicF f => some (.fac f) | .resetMetallic => some .reset | _ => none
def roughnessEv : Op n → Option (Ev (Tex ℝ) ℝ)
  | .setRoughness t => some (.img t) | .setRoughnessF f => some (.fac f) | .resetRoughness => some .reset | _ => none
def normalEv : Op n → Option (Ev (Tex V3) ℝ)
  | .setNormal t => some (.img t) | .setNormalF f => some (.fac f) | .resetNormal => some .reset | _ => none
def transmissionEv : Op n → Option (Ev (Tex (Fin n → ℝ)) (Fin n → ℝ))
  | .setTransmission t => some (.img t) | .setTransmissionF f => some (.fac f) | .resetTransmission => some .reset | _ => none
def emissiveEv : Op n → Option (Ev (Tex (Fin n → ℝ)) (Fin n → ℝ))
  | .setEmissive t => some (.img t) | .setEmissiveF f => some (.fac f) | .resetEmissive => some .reset | _ => none

/-- The calls of a history that concern a slot, newest first. -/
def evs {α β : Type} (f : Op n → Option (Ev α β)) (ops : List (Op n)) : List (Ev α β) := ops.reverse.filterMap f

/-- The model in force after a history. -/
def bsdfAfter (k : Kind) (ops : List (Op n)) : Kind :=
  (ops.reverse.findSome? fun | .setBsdf k' => some k' | _ => none).getD k

/-- The state the history calls for. -/
structure Expected (k : Kind) (d : Images n) (ops : List (Op n)) (m : Mat n) : Prop where
  albedo : m.img.albedo = imageAfter d.albedo (evs albedoEv ops) ∧ m.albedoF = givenFactor (fun _ => 1) (evs albedoEv ops)
  alpha : m.img.alpha = imageAfter d.alpha (evs alphaEv ops) ∧ m.alphaF = givenFactor 1 (evs alphaEv ops)
  metallic : m.img.metallic = imageAfter d.metallic (evs metallicEv ops) ∧ m.metallicF = liftedFactor 0 0 1 (evs metallicEv ops)
  roughness : m.img.roughness = imageAfter d.roughness (evs roughnessEv ops) ∧ m.roughnessF = givenFactor 1 (evs roughnessEv ops)
  normal : m.img.normal = imageAfter d.normal (evs normalEv ops) ∧ m.normalF = givenFactor 1 (evs normalEv ops)
  transmission : m.img.transmission = imageAfter d.transmission (evs transmissionEv ops) ∧
    m.transmissionF = liftedFactor (fun _ => 0) (fun _ => 0) (fun _ => 1) (evs transmissionEv ops)
  emissive : m.img.emissive = imageAfter d.emissive (evs emissiveEv ops) ∧
    m.emissiveF = liftedFactor (fun _ => 0) (fun _ => 0) (fun _ => 1) (evs emissiveEv ops)
  bsdf : m.bsdf = bsdfAfter k ops
  hasAlpha : m.hasAlpha = true ↔ alphaUsed (evs alphaEv ops)
  dflt : m.dflt = d
  flags : (⟨m.evalAlbedo, m.evalMetallic, m.evalRoughness, m.evalNormal⟩ : Reqs) = requirements m.bsdf

theorem run_append (k : Kind) (d : Images n) (ops : List (Op n)) (o : Op n) : run k d (ops ++ [o]) = apply (run k d ops) o := by
  simp [run]

theorem given_lifted {α β : Type} (d zero one : β) (h : one ≠ zero ∨ Subsingleton β) (a : α) (evs : List (Ev α β)) :
    liftedFactor d zero one (.img a :: evs) =
      if liftedFactor d zero one evs = zero then one else liftedFactor d zero one evs := by
  have e : liftedFactor d zero one (.img a :: evs) = if givenFactor d evs = zero then one else givenFactor d evs := by
    simp [liftedFactor, imageIsNewer, givenFactor]
  rw [e]
  by_cases h1 : givenFactor d evs = zero
  · by_cases h2 : imageIsNewer evs
    · have e2 : liftedFactor d zero one evs = one := by unfold liftedFactor; rw [if_pos ⟨h2, h1⟩]
      rw [e2, if_pos h1]
      rcases h with h | h
      · rw [if_neg h]
      · exact Subsingleton.elim _ _
    · have e2 : liftedFactor d zero one evs = givenFactor d evs := by unfold liftedFactor; rw [if_neg (by tauto)]
      rw [e2]
  · have e2 : liftedFactor d zero one evs = givenFactor d evs := by unfold liftedFactor; rw [if_neg (by tauto)]
    rw [e2]

theorem one_ne_zero_fn : ((fun _ => 1 : Fin n → ℝ) ≠ (fun _ => 0)) ∨ Subsingleton (Fin n → ℝ) := by
  rcases n with _ | n
  · right; infer_instance
  · left; intro h; have := congrFun h 0; simp at this

theorem evs_append {α β : Type} (f : Op n → Option (Ev α β)) (ops : List (Op n)) (o : Op n) :
    evs f (ops ++ [o]) = match f o with | none => evs f ops | some e => e :: evs f ops := by
  simp only [evs, List.reverse_append, List.reverse_singleton, List.singleton_append, List.filterMap_cons]
  cases f o <;> rfl

theorem bsdfAfter_append (k : Kind) (ops : List (Op n)) (o : Op n) :
    bsdfAfter k (ops ++ [o]) = match o with | .setBsdf k' => k' | _ => bsdfAfter k ops := by
  cases o <;> simp [bsdfAfter]

theorem lift_step {α β : Type} {d zero one : β} (h : one ≠ zero ∨ Subsingleton β) (a : α) {evs : List (Ev α β)} {x : β}
    (hx : x = liftedFactor d zero one evs) [Decidable (x = zero)] :
    (if x = zero then one else x) = liftedFactor d zero one (.img a :: evs) := by
  rw [given_lifted _ _ _ h]; subst hx; split_ifs <;> rfl

/-- **C71.**  After any history of calls each slot holds the newest image and factor given since its last reset (or the
defaults), whatever was done to the other slots; the model and the alpha flag likewise. -/
theorem C71_history (k : Kind) (d : Images n) (ops : List (Op n)) : Expected k d ops (run k d ops) := by
  induction ops using List.reverseRecOn with
  | nil =>
    constructor <;>
      simp [run, new, setBsdf, evs, imageAfter, givenFactor, liftedFactor, imageIsNewer, bsdfAfter, alphaUsed]
  | append_singleton ops o ih =>
    rw [run_append]
    obtain ⟨h1, h2, h3, h4, h5, h6, h7, h8, h9, h10, h11⟩ := ih
    generalize run k d ops = m at *
    have l : ∀ (b : ℝ) (r : List (Ev (Tex ℝ) ℝ)), b = liftedFactor 0 0 1 (.fac b :: r) := by
      intro b r; simp [liftedFactor, imageIsNewer, givenFactor]
    have l' : ∀ (b : Fin n → ℝ) (r : List (Ev (Tex (Fin n → ℝ)) (Fin n → ℝ))),
        b = liftedFactor (fun _ => 0) (fun _ => 0) (fun _ => 1) (.fac b :: r) := by
      intro b r; simp [liftedFactor, imageIsNewer, givenFactor]
    have r : ∀ (r : List (Ev (Tex ℝ) ℝ)), 0 = liftedFactor 0 0 1 (.reset :: r) := by
      intro r; simp [liftedFactor, imageIsNewer, givenFactor]
    have r' : ∀ (r : List (Ev (Tex (Fin n → ℝ)) (Fin n → ℝ))),
        (fun _ => 0) = liftedFactor (fun _ => 0) (fun _ => 0) (fun _ => 1) (.reset :: r) := by
      intro r; simp [liftedFactor, imageIsNewer, givenFactor]
    cases o <;> constructor <;>
      simp only [apply, setBsdf, setAlbedo, setAlbedoF, resetAlbedo, setAlpha, setAlphaF, resetAlpha, setMetallic, setMetallicF,
        resetMetallic, setRoughness, setRoughnessF, resetRoughness, setNormal, setNormalF, resetNormal, setTransmission,
        setTransmissionF, resetTransmission, setEmissive, setEmissiveF, resetEmissive, evs_append, bsdfAfter_append,
        albedoEv, alphaEv, metallicEv, roughnessEv, normalEv, transmissionEv, emissiveEv] <;>
      first
        | assumption
        | rfl
        | exact ⟨h1.1, rfl⟩ | exact ⟨rfl, h1.2⟩ | exact ⟨by rw [h10]; rfl, rfl⟩
        | exact ⟨h2.1, rfl⟩ | exact ⟨rfl, h2.2⟩
        | exact ⟨h4.1, rfl⟩ | exact ⟨rfl, h4.2⟩ | exact ⟨h5.1, rfl⟩ | exact ⟨rfl, h5.2⟩
        | exact ⟨rfl, lift_step (Or.inl one_ne_zero) _ h3.2⟩
        | exact ⟨rfl, lift_step one_ne_zero_fn _ h6.2⟩
        | exact ⟨rfl, lift_step one_ne_zero_fn _ h7.2⟩
        | exact ⟨h3.1, l _ _⟩ | exact ⟨h6.1, l' _ _⟩ | exact ⟨h7.1, l' _ _⟩
        | exact ⟨by rw [h10]; rfl, r _⟩ | exact ⟨by rw [h10]; rfl, r' _⟩
        | (simp only [alphaUsed]; split_ifs <;> simp_all)
        | simp [alphaUsed]

/-! ## Resets and independence of the slots -/

/-- The seven slots. -/
inductive Slot
  | albedo | alpha | metallic | roughness | normal | transmission | emissive
deriving DecidableEq

/-- `reset_X`. -/
def resetOp : Slot → Op n
  | .albedo => .resetAlbedo | .alpha => .resetAlpha | .metallic => .resetMetallic | .roughness => .resetRoughness
  | .normal => .resetNormal | .transmission => .resetTransmission | .emissive => .resetEmissive

/-- The slot a call names; `none` for `set_bsdf`. -/
def opSlot : Op n → Option Slot
  | .setBsdf _ => none
  | .setAlbedo _ | .setAlbedoF _ | .resetAlbedo => some .albedo
  | .setAlpha _ | .setAlphaF _ | .resetAlpha => some .alpha
  | .setMetallic _ | .setMetallicF _ | .resetMetallic => some .metallic
  | .setRoughness _ | .setRoughnessF _ | .resetRoughness => some .roughness
  | .setNormal _ | .setNormalF _ | .resetNormal => some .normal
  | .setTransmission _ | .setTransmissionF _ | .resetTransmission => some .transmission
  | .setEmissive _ | .setEmissiveF _ | .resetEmissive => some .emissive

/-- Two materials agree on a slot: same image, same factor (and the same alpha flag). -/
def same : Slot → Mat n → Mat n → Prop
  | .albedo, a, b => a.img.albedo = b.img.albedo ∧ a.albedoF = b.albedoF
  | .alpha, a, b => a.img.alpha = b.img.alpha ∧ a.alphaF = b.alphaF ∧ a.hasAlpha = b.hasAlpha
  | .metallic, a, b => a.img.metallic = b.img.metallic ∧ a.metallicF = b.metallicF
  | .roughness, a, b => a.img.roughness = b.img.roughness ∧ a.roughnessF = b.roughnessF
  | .normal, a, b => a.img.normal = b.img.normal ∧ a.normalF = b.normalF
  | .transmission, a, b => a.img.transmission = b.img.transmission ∧ a.transmissionF = b.transmissionF
  | .emissive, a, b => a.img.emissive = b.img.emissive ∧ a.emissiveF = b.emissiveF

theorem same_refl (s : Slot) (m : Mat n) : same s m m := by cases s <;> simp [same]

/-- **C71.**  A call on one slot changes no other slot; only `set_bsdf` changes the model, and it changes no slot. -/
theorem C71_frame (m : Mat n) (o : Op n) :
    (∀ s, opSlot o ≠ some s → same s (apply m o) m) ∧ (opSlot o ≠ none → (apply m o).bsdf = m.bsdf) ∧
    (apply m o).dflt = m.dflt := by
  refine ⟨fun s hs => ?_, fun h => ?_, ?_⟩
  · cases o <;> cases s <;> first | exact absurd rfl hs | exact ⟨rfl, rfl⟩ | exact ⟨rfl, rfl, rfl⟩
  · cases o <;> first | exact absurd rfl h | rfl
  · cases o <;> rfl

/-- **C71.**  After any history, `reset_X` gives slot X what a new material has and changes nothing else. -/
theorem C71_reset (k : Kind) (d : Images n) (ops : List (Op n)) (s : Slot) :
    same s (run k d (ops ++ [resetOp s])) (new k d) ∧
    (∀ s', s' ≠ s → same s' (run k d (ops ++ [resetOp s])) (run k d ops)) ∧
    (run k d (ops ++ [resetOp s])).bsdf = (run k d ops).bsdf := by
  have hd : (run k d ops).dflt = d := (C71_history k d ops).dflt
  rw [run_append]
  refine ⟨?_, fun s' hs' => ?_, ?_⟩
  · cases s <;> simp [same, apply, resetOp, resetAlbedo, resetAlpha, resetMetallic, resetRoughness, resetNormal,
      resetTransmission, resetEmissive, hd, new, setBsdf]
  · refine (C71_frame _ _).1 s' ?_
    cases s <;> simpa [resetOp, opSlot, eq_comm] using hs'
  · refine (C71_frame _ _).2.1 ?_
    cases s <;> simp [resetOp, opSlot]

/-- **C71.**  Resetting the seven slots in any order after any history, and choosing a model, gives exactly a new material. -/
theorem C71_reset_all (k k' : Kind) (d : Images n) (ops : List (Op n)) (order : List Slot) (h : ∀ s, s ∈ order) :
    run k d (ops ++ order.map resetOp ++ [.setBsdf k']) = new k' d := by
  have key : ∀ (order : List Slot) (s : Slot), s ∈ order → same s (run k d (ops ++ order.map resetOp)) (new k' d) := by
    intro order
    induction order using List.reverseRecOn with
    | nil => simp
    | append_singleton l a ih =>
      intro s hs
      rw [List.map_append, ← List.append_assoc]
      by_cases e : s = a
      · subst e
        have := (C71_reset k d (ops ++ l.map resetOp) s).1
        cases s <;> exact this
      · have h1 := ih s (by simpa [e] using hs)
        have h2 := (C71_reset k d (ops ++ l.map resetOp) a).2.1 s e
        cases s <;> simp only [same, List.map_cons, List.map_nil] at h1 h2 ⊢ <;> simp_all
  have hd := (C71_history k d (ops ++ order.map resetOp)).dflt
  have a1 := key order .albedo (h _)
  have a2 := key order .alpha (h _)
  have a3 := key order .metallic (h _)
  have a4 := key order .roughness (h _)
  have a5 := key order .normal (h _)
  have a6 := key order .transmission (h _)
  have a7 := key order .emissive (h _)
  rw [run_append]
  generalize run k d (ops ++ order.map resetOp) = m at *
  obtain ⟨⟨i1, i2, i3, i4, i5, i6, i7⟩, dd, b, e1, ha, e2, e3, e4, f1, f2, f3, f4, f5, f6, f7⟩ := m
  simp only [same, new, setBsdf] at a1 a2 a3 a4 a5 a6 a7 hd
  obtain ⟨rfl, rfl⟩ := a1
  obtain ⟨rfl, rfl, rfl⟩ := a2
  obtain ⟨rfl, rfl⟩ := a3
  obtain ⟨rfl, rfl⟩ := a4
  obtain ⟨rfl, rfl⟩ := a5
  obtain ⟨rfl, rfl⟩ := a6
  obtain ⟨rfl, rfl⟩ := a7
  subst hd
  rfl

/-- **C71.**  Only the calls on a slot matter to it: two histories with the same calls slot by slot and the same last model
give the same material, however the calls on different slots are interleaved. -/
theorem C71_independent (k : Kind) (d : Images n) (o1 o2 : List (Op n)) (h1 : evs albedoEv o1 = evs albedoEv o2)
    (h2 : evs alphaEv o1 = evs alphaEv o2) (h3 : evs metallicEv o1 = evs metallicEv o2)
    (h4 : evs roughnessEv o1 = evs roughnessEv o2) (h5 : evs normalEv o1 = evs normalEv o2)
    (h6 : evs transmissionEv o1 = evs transmissionEv o2) (h7 : evs emissiveEv o1 = evs emissiveEv o2)
    (h8 : bsdfAfter k o1 = bsdfAfter k o2) : run k d o1 = run k d o2 := by
  have a := C71_history k d o1
  have b := C71_history k d o2
  generalize run k d o1 = x at *
  generalize run k d o2 = y at *
  obtain ⟨⟨i1, i2, i3, i4, i5, i6, i7⟩, dd, bb, e1, ha, e2, e3, e4, f1, f2, f3, f4, f5, f6, f7⟩ := x
  obtain ⟨⟨j1, j2, j3, j4, j5, j6, j7⟩, dd', bb', e1', ha', e2', e3', e4', g1, g2, g3, g4, g5, g6, g7⟩ := y
  obtain ⟨a1, a2, a3, a4, a5, a6, a7, a8, a9, a10, a11⟩ := a
  obtain ⟨b1, b2, b3, b4, b5, b6, b7, b8, b9, b10, b11⟩ := b
  simp only at a1 a2 a3 a4 a5 a6 a7 a8 a9 a10 a11 b1 b2 b3 b4 b5 b6 b7 b8 b9 b10 b11
  rw [h1, ← b1.1, ← b1.2] at a1
  rw [h2, ← b2.1, ← b2.2] at a2
  rw [h3, ← b3.1, ← b3.2] at a3
  rw [h4, ← b4.1, ← b4.2] at a4
  rw [h5, ← b5.1, ← b5.2] at a5
  rw [h6, ← b6.1, ← b6.2] at a6
  rw [h7, ← b7.1, ← b7.2] at a7
  rw [h8, ← b8] at a8
  rw [h2, ← b9] at a9
  rw [a8, ← b11] at a11
  obtain ⟨rfl, rfl⟩ := a1
  obtain ⟨rfl, rfl⟩ := a2
  obtain ⟨rfl, rfl⟩ := a3
  obtain ⟨rfl, rfl⟩ := a4
  obtain ⟨rfl, rfl⟩ := a5
  obtain ⟨rfl, rfl⟩ := a6
  obtain ⟨rfl, rfl⟩ := a7
  subst a8 a10 b10
  simp only [Reqs.mk.injEq] at a11
  obtain ⟨rfl, rfl, rfl, rfl⟩ := a11
  have : ha = ha' := by cases ha <;> cases ha' <;> simp_all
  subst this; rfl

/-- **C71.**  Giving an image never changes a factor that is not zero, and never any factor of albedo, alpha, roughness and
normal; a metallic, transmission or emissive factor of zero becomes one. -/
theorem C71_image_keeps_factor (m : Mat n) (t : Tex ℝ) (tv : Tex V3) (ts : Tex (Fin n → ℝ)) :
    (apply m (.setAlbedo ts)).albedoF = m.albedoF ∧ (apply m (.setAlpha t)).alphaF = m.alphaF ∧
    (apply m (.setRoughness t)).roughnessF = m.roughnessF ∧ (apply m (.setNormal tv)).normalF = m.normalF ∧
    (apply m (.setMetallic t)).metallicF = (if m.metallicF = 0 then 1 else m.metallicF) ∧
    (apply m (.setTransmission ts)).transmissionF = (if ∀ i, m.transmissionF i = 0 then fun _ => 1 else m.transmissionF) ∧
    (apply m (.setEmissive ts)).emissiveF = (if ∀ i, m.emissiveF i = 0 then fun _ => 1 else m.emissiveF) := by
  simp [apply, setAlbedo, setAlpha, setRoughness, setNormal, setMetallic, setTransmission, setEmissive, funext_iff]

/-- **C71.**  A factor of zero given explicitly does not survive an image given after it. -/
theorem C71_explicit_zero (k : Kind) (d : Images n) (ops : List (Op n)) (t : Tex ℝ) :
    (run k d (ops ++ [.setMetallicF 0, .setMetallic t])).metallicF = 1 ∧
    (run k d (ops ++ [.setMetallic t, .setMetallicF 0])).metallicF = 0 := by
  constructor <;> simp [run, apply, setMetallic, setMetallicF]

/-- **C71.**  The alpha flag is not cleared by a factor of one or more: only a reset clears it. -/
theorem C71_alpha_flag (k : Kind) (d : Images n) (ops : List (Op n)) (f : ℝ) (hf : 1 ≤ f) :
    (run k d (ops ++ [.setAlphaF f])).hasAlpha = (run k d ops).hasAlpha := by
  simp [run, apply, setAlphaF, not_lt.mpr hf]

/-- A history exercising the above: image, explicit factor, other slots, reset. -/
example : (run (n := 1) .lambertian (sceneDefaults 0)
      [.setMetallic ⟨9, fun _ _ => 0.25⟩, .setAlphaF 0.5, .setBsdf .orenNayar, .setRoughnessF 0.75, .resetMetallic,
       .setEmissive ⟨11, fun _ _ _ => 3⟩]).metallicF = 0 ∧
    (run (n := 1) .lambertian (sceneDefaults 0) [.setEmissive ⟨11, fun _ _ _ => 3⟩]).emissiveF = fun _ => 1 := by
  simp [run, apply, new, setBsdf, setMetallic, setAlphaF, setRoughnessF, resetMetallic, setEmissive]

end
end Huira.Material
