import Verif.Render.PathModel
import Verif.Render.StatsProps
set_option linter.unusedSimpArgs false
/-!
# C55: key frames; C56: lights behind specular surfaces; C78: lights in media; C82: environment lookup
-/
namespace Huira.Path
noncomputable section
open Classical

variable {Pos : Type}

/-! ### C56 -/

/-- Specification: the last vertex of a prefix where a direction was sampled (pass-throughs do not count). -/
def lastVertex : List (Event Pos) → Option (Event Pos)
  | [] => none
  | e :: es => match lastVertex es with
    | some v => some v
    | none => match e with
      | .pass _ => none
      | v => some v

theorem lastVertex_append (es : List (Event Pos)) (e : Event Pos) :
    lastVertex (es ++ [e]) = match e with
      | .pass _ => lastVertex es
      | v => some v := by
  induction es with
  | nil => cases e <;> rfl
  | cons a t ih =>
    simp only [List.cons_append, lastVertex, ih]
    cases e <;> rfl

theorem after_append (es : List (Event Pos)) (e : Event Pos) : after (es ++ [e]) = (after es).next e := by
  simp [after, List.foldl_append]

/-- What the renderer remembers after a prefix, in terms of its last vertex. -/
theorem after_spec (es : List (Event Pos)) :
    match lastVertex es with
    | none => (after es).bounce = 0
    | some (.surface p d f) => 0 < (after es).bounce ∧ (after es).pdf = (if d then .fin 0 else f) ∧ (after es).isect = some p
    | some (.volume _ f) => 0 < (after es).bounce ∧ (after es).pdf = f
    | some (.pass _) => False := by
  induction es using List.reverseRecOn with
  | nil => rfl
  | append_singleton es e ih =>
    rw [lastVertex_append, after_append]
    cases e with
    | surface p d f => exact ⟨Nat.succ_pos _, rfl, rfl⟩
    | volume p f => exact ⟨Nat.succ_pos _, rfl⟩
    | pass p => simpa [St.next] using ih

/-- The property at full strength: a light hit on the camera ray, or right after a specular (delta) scattering, which no
light sample can reproduce, counts with weight one. -/
def C56_full : Prop :=
  ∀ (Pos : Type) (es : List (Event Pos)) (lightPdf : Option Pos → XF),
    (∀ i, ∃ r, lightPdf i = .fin r ∧ 0 < r) →
    (lastVertex es = none ∨ ∃ p f, lastVertex es = some (.surface p true f)) →
    hitWeight (after es) lightPdf = .fin 1

/-- **C56, violated.** After a specular surface a light hit gets weight 0 for every positive light density: lights are
invisible in mirrors and behind boundary surfaces of media (null BSDF), where light samples contribute nothing either. -/
theorem C56_specular_weight_zero (es : List (Event Pos)) (p : Pos) (f : XF)
    (h : lastVertex es = some (.surface p true f)) (lightPdf : Option Pos → XF) (r : ℝ)
    (hr : lightPdf (some p) = .fin r) (hpos : 0 < r) : hitWeight (after es) lightPdf = .fin 0 := by
  have hs := after_spec es
  rw [h] at hs
  obtain ⟨h1, h2, h3⟩ := hs
  unfold hitWeight
  rw [if_pos h1, h2, h3, hr, if_pos rfl, Stats.heuristic_fin 0 r (Or.inr hpos.ne')]
  simp

theorem C56_violated : ¬ C56_full := by
  intro h
  have h1 := h Unit [.surface () true (.fin 1)] (fun _ => .fin 1) (fun _ => ⟨1, rfl, one_pos⟩)
    (Or.inr ⟨(), .fin 1, rfl⟩)
  rw [C56_specular_weight_zero [.surface () true (.fin 1)] () (.fin 1) rfl _ 1 rfl one_pos] at h1
  simp at h1

/-- **C56, partial (camera rays).** A light seen by the camera directly, or through any number of partly transparent
surfaces, counts with weight one. Missing: specular vertices (`C56_violated`). -/
theorem C56_camera_ray_partial (es : List (Event Pos)) (h : lastVertex es = none) (lightPdf : Option Pos → XF) :
    hitWeight (after es) lightPdf = .fin 1 := by
  have hs := after_spec es
  rw [h] at hs
  unfold hitWeight
  rw [if_neg (by omega)]

/-- Specification: is the event a vertex at which a new direction was chosen? -/
def isVertex : Event Pos → Bool
  | .pass _ => false
  | _ => true

/-- C56: the bounce number is the number of vertices so far; passing through partly transparent surfaces does not count. -/
theorem C56_bounces (es : List (Event Pos)) : (after es).bounce = (es.filter isVertex).length := by
  induction es using List.reverseRecOn with
  | nil => rfl
  | append_singleton es e ih =>
    rw [after_append, List.filter_append, List.length_append, ← ih]
    cases e <;> simp [St.next, isVertex, List.filter]

/-- **C56, partial (rough surfaces).** After a non-specular surface, the weight of a light hit and the weight the same
direction gets as a light sample at that surface sum to one: the light is counted once. -/
theorem C56_surface_weights_partial (es : List (Event Pos)) (p : Pos) (f l : ℝ) (hf : 0 < f) (hl : 0 < l)
    (h : lastVertex es = some (.surface p false (.fin f))) (lightPdf : Option Pos → XF)
    (hp : lightPdf (some p) = .fin l) :
    ∃ a b : ℝ, hitWeight (after es) lightPdf = .fin a ∧ neeSurface (lightPdf (some p)) (.fin f) = .fin b ∧
      0 < a ∧ 0 < b ∧ a + b = 1 := by
  have hs := after_spec es
  rw [h] at hs
  obtain ⟨h1, h2, h3⟩ := hs
  have hff := mul_pos hf hf
  have hll := mul_pos hl hl
  refine ⟨f * f / (f * f + l * l), l * l / (l * l + f * f), ?_, ?_, by positivity, by positivity, ?_⟩
  · unfold hitWeight
    rw [if_pos h1, h2, h3, hp]
    simp only [Bool.false_eq_true, if_false]
    exact Stats.heuristic_fin f l (Or.inl hf.ne')
  · unfold neeSurface
    rw [hp]
    exact Stats.heuristic_fin l f (Or.inl hl.ne')
  · rw [add_comm (l * l) (f * f), ← add_div]
    exact div_self (by positivity)

/-- A path: mirror-free, first through a transparent leaf, then a rough surface. -/
example : lastVertex [Event.pass 0, .surface 1 false (.fin 2), .pass 2] = some (.surface 1 false (.fin 2)) := rfl

/-! ### C78 -/

/-- The property at full strength: at a scattering in a medium too, the weights of sampling the light and of hitting it
sum to one. -/
def C78_full : Prop :=
  ∀ (Pos : Type) (es : List (Event Pos)) (p : Pos) (f : ℝ) (lightPdf : Option Pos → XF),
    0 < f → (∀ i, ∃ r, lightPdf i = .fin r ∧ 0 < r) → lastVertex es = some (.volume p (.fin f)) →
    XF.add neeVolume (hitWeight (after es) lightPdf) = .fin 1

/-- **C78, violated for every scattering.** A light sample taken in a medium has weight one, and hitting the light later
has a positive weight as well: the light is counted more than once at every scattering in a medium. -/
theorem C78_double_counted (es : List (Event Pos)) (p : Pos) (f : ℝ) (hf : 0 < f) (lightPdf : Option Pos → XF)
    (hl : ∀ i, ∃ r, lightPdf i = .fin r ∧ 0 < r) (h : lastVertex es = some (.volume p (.fin f))) :
    ∃ w : ℝ, XF.add neeVolume (hitWeight (after es) lightPdf) = .fin w ∧ 1 < w := by
  have hs := after_spec es
  rw [h] at hs
  obtain ⟨h1, h2⟩ := hs
  obtain ⟨r, hr, hr0⟩ := hl (after es).isect
  have hff := mul_pos hf hf
  have hrr := mul_pos hr0 hr0
  refine ⟨1 + f * f / (f * f + r * r), ?_, ?_⟩
  · unfold hitWeight neeVolume
    rw [if_pos h1, h2, hr, Stats.heuristic_fin f r (Or.inl hf.ne')]
    rfl
  · have : 0 < f * f / (f * f + r * r) := by positivity
    linarith

theorem C78_violated : ¬ C78_full := by
  intro h
  have h1 := h Unit [.volume () (.fin 1)] () 1 (fun _ => .fin 1) one_pos (fun _ => ⟨1, rfl, one_pos⟩) rfl
  obtain ⟨w, hw, hw1⟩ := C78_double_counted [Event.volume () (.fin 1)] () 1 one_pos (fun _ => .fin 1)
    (fun _ => ⟨1, rfl, one_pos⟩) rfl
  rw [hw] at h1
  simp only [XF.fin.injEq] at h1
  linarith

/-- **C78, stale reference point.** Moreover the light's density is evaluated from the last surface (or from a
default-constructed interaction), not from the point of scattering: it does not depend on that point at all. -/
theorem C78_reference_point (es : List (Event Pos)) (p q : Pos) (f : XF) (lightPdf : Option Pos → XF) :
    hitWeight (after (es ++ [.volume p f])) lightPdf = hitWeight (after (es ++ [.volume q f])) lightPdf := by
  rw [after_append, after_append]; rfl

/-! ### C55 -/

/-- The property at full strength: at the time of a key frame the interpolated transform is that key frame. -/
def C55_full : Prop :=
  ∀ (Rot : Type) (ident : Rot) (l : List (Frame Rot)) (k : Nat), 2 ≤ l.length → (hk : k < l.length) →
    interpolate ident l ((k : ℝ) / ((l.length - 1 : Nat) : ℝ)) = l[k]

theorem interpolate_two {Rot : Type} (ident : Rot) (l : List (Frame Rot)) (t : ℝ) (h : 2 ≤ l.length) :
    interpolate ident l t =
      { Frame.default ident with
        position := (1 - (t * ((l.length - 1 : Nat) : ℝ) - ((min ⌊t * ((l.length - 1 : Nat) : ℝ)⌋.toNat (l.length - 2) : Nat) : ℝ))) *
          (l.getD (min ⌊t * ((l.length - 1 : Nat) : ℝ)⌋.toNat (l.length - 2)) (Frame.default ident)).position +
          (t * ((l.length - 1 : Nat) : ℝ) - ((min ⌊t * ((l.length - 1 : Nat) : ℝ)⌋.toNat (l.length - 2) : Nat) : ℝ)) *
          (l.getD (min ⌊t * ((l.length - 1 : Nat) : ℝ)⌋.toNat (l.length - 2) + 1) (Frame.default ident)).position } := by
  match l, h with
  | a :: b :: t', _ => rfl

/-- **C55, rotation and scale are lost.** With two or more key frames the interpolated transform has the identity rotation
and unit scale at every time, whatever the key frames are. -/
theorem C55_rotation_lost {Rot : Type} (ident : Rot) (l : List (Frame Rot)) (t : ℝ) (h : 2 ≤ l.length) :
    (interpolate ident l t).rotation = ident ∧ (interpolate ident l t).scale = ⟨1, 1, 1⟩ := by
  rw [interpolate_two ident l t h]
  exact ⟨rfl, rfl⟩

theorem C55_violated : ¬ C55_full := by
  intro h
  have := h Bool false [⟨V3.zero, true, ⟨1, 1, 1⟩⟩, ⟨V3.zero, true, ⟨1, 1, 1⟩⟩] 0 (by simp) (by simp)
  have h2 := congrArg Frame.rotation this
  rw [(C55_rotation_lost false _ _ (by simp)).1] at h2
  simp at h2

/-- **C55, partial (position).** The position is that of the key frame at its time. Missing: rotation and scale, except
for a single key frame (below). -/
theorem C55_position_partial {Rot : Type} (ident : Rot) (l : List (Frame Rot)) (k : Nat) (h : 2 ≤ l.length)
    (hk : k < l.length) : (interpolate ident l ((k : ℝ) / ((l.length - 1 : Nat) : ℝ))).position = l[k].position := by
  have hpos : ((l.length - 1 : Nat) : ℝ) ≠ 0 := by
    have : 0 < l.length - 1 := by omega
    positivity
  rw [interpolate_two ident l _ h, div_mul_cancel₀ _ hpos]
  simp only [Int.floor_natCast, Int.toNat_natCast]
  have hg : ∀ j (hj : j < l.length), l.getD j (Frame.default ident) = l[j] := by
    intro j hj; simp [List.getD, List.getElem?_eq_getElem hj]
  by_cases hlast : k ≤ l.length - 2
  · rw [min_eq_left hlast, hg k hk]
    ext <;> simp
  · have e : k = l.length - 2 + 1 := by omega
    rw [min_eq_right (by omega)]
    have h1 : ((k : ℝ) - ((l.length - 2 : Nat) : ℝ)) = 1 := by
      rw [e]; push_cast; ring
    rw [h1]
    have hg2 : l.getD (l.length - 2 + 1) (Frame.default ident) = l[k] := by
      rw [← e]; exact hg k hk
    rw [hg2]
    ext <;> simp

/-- Between key frames the position lies on the segment between two neighbours. -/
theorem C55_position_between {Rot : Type} (ident : Rot) (l : List (Frame Rot)) (t : ℝ) (h : 2 ≤ l.length) (h0 : 0 ≤ t)
    (h1 : t ≤ 1) : ∃ k, ∃ hk : k + 1 < l.length, ∃ w : ℝ, 0 ≤ w ∧ w ≤ 1 ∧
      (interpolate ident l t).position = (1 - w) * (l[k]'(by omega)).position + w * l[k + 1].position ∧
      t * ((l.length - 1 : Nat) : ℝ) = k + w := by
  have hpos : (0 : ℝ) < ((l.length - 1 : Nat) : ℝ) := by
    have : 0 < l.length - 1 := by omega
    exact_mod_cast this
  rw [interpolate_two ident l t h]
  simp only []
  set s := t * ((l.length - 1 : Nat) : ℝ) with hs
  have s0 : 0 ≤ s := by positivity
  have s1 : s ≤ ((l.length - 1 : Nat) : ℝ) := by rw [hs]; nlinarith
  have hf0 : 0 ≤ ⌊s⌋ := Int.floor_nonneg.2 s0
  have hfc : ((⌊s⌋.toNat : Nat) : ℝ) = (⌊s⌋ : ℝ) := by
    have : ((⌊s⌋.toNat : Nat) : Int) = ⌊s⌋ := Int.toNat_of_nonneg hf0
    exact_mod_cast this
  set k := min ⌊s⌋.toNat (l.length - 2) with hk
  have hle : (k : ℝ) ≤ s := by
    have h1 : (k : ℝ) ≤ (⌊s⌋.toNat : ℝ) := by exact_mod_cast min_le_left _ _
    rw [hfc] at h1
    exact le_trans h1 (Int.floor_le s)
  have hlt : s ≤ (k : ℝ) + 1 := by
    by_cases hc : ⌊s⌋.toNat ≤ l.length - 2
    · have : k = ⌊s⌋.toNat := min_eq_left hc
      rw [this, hfc]
      exact (Int.lt_floor_add_one s).le
    · have : k = l.length - 2 := min_eq_right (by omega)
      rw [this]
      have e : ((l.length - 1 : Nat) : ℝ) = ((l.length - 2 : Nat) : ℝ) + 1 := by
        have : l.length - 1 = l.length - 2 + 1 := by omega
        rw [this]; push_cast; ring
      linarith
  have hk1 : k + 1 < l.length := by omega
  have hg : ∀ j (hj : j < l.length), l.getD j (Frame.default ident) = l[j] := by
    intro j hj; simp [List.getD, List.getElem?_eq_getElem hj]
  refine ⟨k, hk1, s - k, by linarith, by linarith, ?_, by ring⟩
  rw [hg k (by omega), hg (k + 1) hk1]

/-- A single key frame is used unchanged; without any, the default transform. -/
theorem C55_single {Rot : Type} (ident : Rot) (a : Frame Rot) (t : ℝ) :
    interpolate ident [a] t = a ∧ interpolate ident [] t = ⟨⟨0, 0, 0⟩, ident, ⟨1, 1, 1⟩⟩ := ⟨rfl, rfl⟩

/-! ### C82 -/

/-- **C82, range.** Every direction (of any length) is looked up inside the environment map. -/
theorem C82_range (d : V3) : 0 < envU d ∧ envU d ≤ 1 ∧ 0 ≤ envV d ∧ envV d ≤ 1 := by
  have hp := Real.pi_pos
  have h1 := Complex.neg_pi_lt_arg ⟨d.x, d.z⟩
  have h2 := Complex.arg_le_pi ⟨d.x, d.z⟩
  have h3 := Real.neg_pi_div_two_le_arcsin (max (-1) (min 1 d.y))
  have h4 := Real.arcsin_le_pi_div_two (max (-1) (min 1 d.y))
  have hi : Real.pi * (1 / Real.pi) = 1 := by field_simp
  have hi0 : 0 < 1 / Real.pi := by positivity
  unfold envU envV
  refine ⟨?_, ?_, ?_, ?_⟩
  · nlinarith [mul_pos (by linarith : (0 : ℝ) < Complex.arg ⟨d.x, d.z⟩ + Real.pi) hi0]
  · nlinarith [mul_nonneg (by linarith : (0 : ℝ) ≤ Real.pi - Complex.arg ⟨d.x, d.z⟩) hi0.le]
  · nlinarith [mul_nonneg (by linarith : (0 : ℝ) ≤ Real.pi / 2 - Real.arcsin (max (-1) (min 1 d.y))) hi0.le]
  · nlinarith [mul_nonneg (by linarith : (0 : ℝ) ≤ Real.arcsin (max (-1) (min 1 d.y)) + Real.pi / 2) hi0.le]

/-- **C82, equirectangular.** The coordinates determine the direction: longitude `phi = 2 pi (u - 1/2)` measured from +x
toward +z and latitude `theta = pi (1/2 - v)` measured from the x-z plane toward +y. In particular two different
directions never share a texel position, and v = 0 is the +y pole. -/
theorem C82_equirectangular (d : V3) (hd : V3.dot d d = 1) :
    d.x = Real.cos (Real.pi * (1 / 2 - envV d)) * Real.cos (2 * Real.pi * (envU d - 1 / 2)) ∧
    d.y = Real.sin (Real.pi * (1 / 2 - envV d)) ∧
    d.z = Real.cos (Real.pi * (1 / 2 - envV d)) * Real.sin (2 * Real.pi * (envU d - 1 / 2)) := by
  have hp := Real.pi_pos
  simp only [V3.dot] at hd
  have hy1 : d.y ≤ 1 := by nlinarith [mul_self_nonneg d.x, mul_self_nonneg d.z]
  have hy0 : -1 ≤ d.y := by nlinarith [mul_self_nonneg d.x, mul_self_nonneg d.z]
  have hclamp : max (-1) (min 1 d.y) = d.y := by rw [min_eq_right hy1, max_eq_right hy0]
  have eth : Real.pi * (1 / 2 - envV d) = Real.arcsin d.y := by
    unfold envV; rw [hclamp]; field_simp; ring
  have eph : 2 * Real.pi * (envU d - 1 / 2) = Complex.arg ⟨d.x, d.z⟩ := by
    unfold envU; field_simp; ring
  rw [eth, eph, Real.sin_arcsin hy0 hy1, Real.cos_arcsin]
  have hn : ‖(⟨d.x, d.z⟩ : ℂ)‖ = Real.sqrt (1 - d.y ^ 2) := by
    rw [Complex.norm_def, Complex.normSq_mk]
    congr 1
    nlinarith
  have h1 := Complex.norm_mul_cos_arg (⟨d.x, d.z⟩ : ℂ)
  have h2 := Complex.norm_mul_sin_arg (⟨d.x, d.z⟩ : ℂ)
  rw [hn] at h1 h2
  exact ⟨h1.symm, rfl, h2.symm⟩

/-- **C82, injective.** -/
theorem C82_injective (d e : V3) (hd : V3.dot d d = 1) (he : V3.dot e e = 1) (hu : envU d = envU e)
    (hv : envV d = envV e) : d = e := by
  obtain ⟨a1, a2, a3⟩ := C82_equirectangular d hd
  obtain ⟨b1, b2, b3⟩ := C82_equirectangular e he
  rw [hu, hv] at a1 a3
  rw [hv] at a2
  ext
  · rw [a1, b1]
  · rw [a2, b2]
  · rw [a3, b3]

/-- The +x direction is the centre of the map. -/
example : envU ⟨1, 0, 0⟩ = 1 / 2 ∧ envV ⟨1, 0, 0⟩ = 1 / 2 := by
  have h1 : Complex.arg ⟨1, 0⟩ = 0 := by
    have : (⟨1, 0⟩ : ℂ) = 1 := rfl
    rw [this, Complex.arg_one]
  simp [envU, envV, h1]

end
end Huira.Path
