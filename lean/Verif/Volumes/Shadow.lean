import Verif.Volumes.Props
import Mathlib.MeasureTheory.Integral.IntervalIntegral.Basic
/-!
# C126: what surfaces and media let through

Models the loop of `SceneView::evaluate_transmittance` (`include/huira_impl/scene/scene_view.ipp` 221-290) with its random
numbers, its medium stack and its distance budget, and the treatment of the same surfaces by the path loop of the renderer
(`include/huira_impl/render/renderer.ipp` 352-372, 437-482, `NullBSDF::sample`).

Simplifications: real numbers; the surfaces along the ray are given as the list the successive intersection tests find, each
with its distance from the point where its ray starts, so the tiny offsets of the restarted rays are not part of the
distances; random numbers are independent and uniform on `[0, 1]`.
-/
namespace Huira.Volumes

noncomputable section

set_option linter.unusedSimpArgs false

/-! ## Programs that draw random numbers -/

/-- A program that may draw uniform random numbers before it ends with a value (`sampler.get_1d()`). -/
inductive Rnd (α : Type)
  | ret (a : α)
  | draw (k : ℝ → Rnd α)

/-- The mean of the value, channel by channel: every number drawn is uniform on `[0, 1]` and independent of the others. -/
def Rnd.mean {n : ℕ} : Rnd (Fin n → ℝ) → Fin n → ℝ
  | .ret v => v
  | .draw k => fun c => ∫ u in (0 : ℝ)..1, Rnd.mean (k u) c

/-! ## Model -/

/-- A surface hit by the ray: distance from where the ray (re)started, its primitive, and what its material says at the
point: opacity and transmission (`ShadingParams`); `isNull`: its reflectance model is `NullBSDF`. -/
structure Surf (n : ℕ) where
  dist : ℝ
  prim : Prim
  opacity : ℝ
  transmission : Fin n → ℝ
  isNull : Bool := false

variable {n : ℕ} (ext : Prim → Fin n → ℝ)

/-- Attenuation by the medium on top of the stack (scene_view.ipp 239-240). -/
def medium (stack : Stack) (acc : Fin n → ℝ) (len : ℝ) : Fin n → ℝ :=
  match top stack with
  | none => acc
  | some p => fun c => acc c * transmittance (ext p) len c

open Classical in
/-- The loop (scene_view.ipp 234-288). -/
def shadow (stack : Stack) (acc : Fin n → ℝ) (remaining : ℝ) : List (Surf n) → Rnd (Fin n → ℝ)
  | [] =>
    if remaining ≤ 0 then .ret acc
    else
      let acc' := medium ext stack acc remaining
      if (top stack).isSome ∧ allNonpos acc' then .ret fun _ => 0
      else .ret acc'
  | s :: rest =>
    if remaining ≤ 0 then .ret acc
    else
      let segment := if s.dist < remaining then s.dist else remaining
      let acc' := medium ext stack acc segment
      if (top stack).isSome ∧ allNonpos acc' then .ret fun _ => 0
      else if ¬ s.dist < remaining then .ret acc'
      else
        let solid :=
          if allNonpos s.transmission then Rnd.ret fun _ => (0 : ℝ)
          else shadow (toggle stack (some s.prim)) (fun c => acc' c * s.transmission c) (remaining - s.dist) rest
        if s.opacity < 1 then
          .draw fun u =>
            if u > s.opacity then shadow (toggle stack (some s.prim)) acc' (remaining - s.dist) rest
            else solid
        else solid

/-- `evaluate_transmittance(ray, t_far, stack, sampler, time)`. -/
def evaluateTransmittance (tFar : ℝ) (stack : Stack) (surfs : List (Surf n)) : Rnd (Fin n → ℝ) :=
  shadow ext stack (fun _ => 1) tFar surfs

/-- The same surface met by a path (renderer.ipp 355-372, and 437-482 for `NullBSDF`, null_bsdf.ipp 25-45): the factor with
which the path goes straight on; 0 when it is reflected or ends. -/
def pathThrough (s : Surf n) : Rnd (Fin n → ℝ) :=
  let solid : Rnd (Fin n → ℝ) := .ret fun _ => if s.isNull then 1 else 0
  if s.opacity < 1 then .draw fun u => if u > s.opacity then .ret fun _ => 1 else solid else solid

/-! ## Specification -/

/-- The surfaces in front of the point at distance `tFar`. -/
def inFront (tFar : ℝ) : List (Surf n) → List (Surf n)
  | [] => []
  | s :: rest => if s.dist < tFar then s :: inFront (tFar - s.dist) rest else []

/-- What a surface lets through on average: the uncovered part, and the tinted covered part. -/
def lets (s : Surf n) (c : Fin n) : ℝ := (1 - s.opacity) + s.opacity * s.transmission c

/-- The lengths of the pieces of the way: up to the first surface, between surfaces, and from the last one to `tFar`. -/
def pieces (tFar : ℝ) (l : List (Surf n)) : List ℝ := l.map (·.dist) ++ [tFar - (l.map (·.dist)).sum]

/-- The optical depth of piece `i` in channel `c`: extinction of the medium the ray is in after crossing `i` surfaces, times
the length. -/
def depth (stack : Stack) (tFar : ℝ) (l : List (Surf n)) (c : Fin n) (i : ℕ) : ℝ :=
  match top (cross stack ((l.take i).map fun s => some s.prim)) with
  | none => 0
  | some p => ext p c * ((pieces tFar l)[i]?).getD 0

/-- Beer-Lambert over the pieces times what the surfaces let through. -/
def through (stack : Stack) (tFar : ℝ) (l : List (Surf n)) (c : Fin n) : ℝ :=
  (∏ i ∈ Finset.range (l.length + 1), Real.exp (-depth ext stack tFar l c i)) * (l.map fun s => lets s c).prod

/-- A material as the library describes it: opacity between 0 and 1, transmission not negative. -/
def Surf.Ok (s : Surf n) : Prop := 0 ≤ s.dist ∧ 0 ≤ s.opacity ∧ s.opacity ≤ 1 ∧ ∀ c, 0 ≤ s.transmission c

/-! ## Lemmas -/

theorem mean_branch (α : ℝ) (h0 : 0 ≤ α) (h1 : α ≤ 1) (A B : Rnd (Fin n → ℝ)) (c : Fin n) :
    (Rnd.draw fun u => if u > α then A else B).mean c = (1 - α) * A.mean c + α * B.mean c := by
  show (∫ u in (0 : ℝ)..1, Rnd.mean (if u > α then A else B) c) = _
  have hf : ∀ u : ℝ, Rnd.mean (if u > α then A else B) c = if u > α then A.mean c else B.mean c := by
    intro u; split_ifs <;> rfl
  have e1 : (∫ u in (0 : ℝ)..α, Rnd.mean (if u > α then A else B) c) = α * B.mean c := by
    rw [intervalIntegral.integral_congr (g := fun _ => B.mean c)]
    · simp
    · intro u hu
      rw [Set.uIcc_of_le h0] at hu
      show Rnd.mean (if u > α then A else B) c = B.mean c
      rw [if_neg (not_lt.2 hu.2)]
  have hae : ∀ᵐ u : ℝ, u ∈ Set.uIoc α 1 → Rnd.mean (if u > α then A else B) c = A.mean c := by
    refine Filter.Eventually.of_forall (fun u hu => ?_)
    rw [Set.uIoc_of_le h1] at hu
    rw [if_pos hu.1]
  have e2 : (∫ u in α..1, Rnd.mean (if u > α then A else B) c) = (1 - α) * A.mean c := by
    rw [intervalIntegral.integral_congr_ae hae]; simp
  have i1 : IntervalIntegrable (fun u => Rnd.mean (if u > α then A else B) c) MeasureTheory.volume 0 α := by
    refine (intervalIntegrable_const (c := B.mean c)).congr ?_
    intro u hu
    rw [Set.uIoc_of_le h0] at hu
    show B.mean c = Rnd.mean (if u > α then A else B) c
    rw [if_neg (not_lt.2 hu.2)]
  have i2 : IntervalIntegrable (fun u => Rnd.mean (if u > α then A else B) c) MeasureTheory.volume α 1 := by
    refine (intervalIntegrable_const (c := A.mean c)).congr ?_
    intro u hu
    rw [Set.uIoc_of_le h1] at hu
    show A.mean c = Rnd.mean (if u > α then A else B) c
    rw [if_pos hu.1]
  rw [← intervalIntegral.integral_add_adjacent_intervals i1 i2, e1, e2]
  ring

theorem transmittance_exp (e : Fin n → ℝ) {t : ℝ} (ht : 0 ≤ t) (c : Fin n) : transmittance e t c = Real.exp (-(e c * t)) := by
  unfold transmittance
  split_ifs with h
  · have : t = 0 := le_antisymm h ht
    subst this; simp
  · simp only [neg_mul]

/-- Optical depth of one piece. -/
def depth1 (stack : Stack) (len : ℝ) (c : Fin n) : ℝ :=
  match top stack with
  | none => 0
  | some p => ext p c * len

theorem medium_eq (stack : Stack) (acc : Fin n → ℝ) {len : ℝ} (hl : 0 ≤ len) (c : Fin n) :
    medium ext stack acc len c = acc c * Real.exp (-depth1 ext stack len c) := by
  unfold medium depth1
  cases top stack with
  | none => simp
  | some p => simp only [transmittance_exp _ hl]

theorem through_nil (stack : Stack) (tFar : ℝ) (c : Fin n) :
    through ext stack tFar [] c = Real.exp (-depth1 ext stack tFar c) := by
  unfold through depth depth1 pieces
  simp [cross]

theorem through_cons (stack : Stack) (tFar : ℝ) (s : Surf n) (l : List (Surf n)) (c : Fin n) :
    through ext stack tFar (s :: l) c =
      Real.exp (-depth1 ext stack s.dist c) * lets s c * through ext (toggle stack (some s.prim)) (tFar - s.dist) l c := by
  have h0 : depth ext stack tFar (s :: l) c 0 = depth1 ext stack s.dist c := by
    unfold depth depth1 pieces
    simp [cross]
  have hs : ∀ i, depth ext stack tFar (s :: l) c (i + 1) = depth ext (toggle stack (some s.prim)) (tFar - s.dist) l c i := by
    intro i
    unfold depth pieces
    simp only [List.take_succ_cons, List.map_cons, cross_cons, List.sum_cons, List.cons_append, List.getElem?_cons_succ]
    have : tFar - (s.dist + (l.map (·.dist)).sum) = tFar - s.dist - (l.map (·.dist)).sum := by ring
    rw [this]
  unfold through
  rw [List.length_cons, Finset.prod_range_succ', h0, List.map_cons, List.prod_cons]
  simp only [hs]
  ring

open Classical in
theorem shadow_mean (l : List (Surf n)) (hok : ∀ s ∈ l, s.Ok) : ∀ (stack : Stack) (acc : Fin n → ℝ) (tFar : ℝ),
    (∀ c, 0 ≤ acc c) → 0 < tFar → ∀ c, (shadow ext stack acc tFar l).mean c = acc c * through ext stack tFar (inFront tFar l) c := by
  -- an accumulated factor that is zero in every channel may as well be returned at once
  have hzero : ∀ (stack : Stack) (acc : Fin n → ℝ) (len : ℝ), (∀ c, 0 ≤ acc c) → 0 ≤ len →
      allNonpos (medium ext stack acc len) → ∀ c, acc c = 0 := by
    intro stack acc len ha hl h c
    have h1 := h c
    rw [medium_eq ext stack acc hl] at h1
    have h2 := Real.exp_pos (-depth1 ext stack len c)
    have : acc c ≤ 0 := by by_contra hc; push Not at hc; exact absurd h1 (not_le.2 (mul_pos hc h2))
    exact le_antisymm this (ha c)
  induction l with
  | nil =>
    intro stack acc tFar ha ht c
    unfold shadow
    rw [if_neg (not_le.2 ht)]
    simp only [inFront]
    rw [through_nil]
    split_ifs with h
    · rw [hzero stack acc tFar ha ht.le h.2 c]; simp [Rnd.mean]
    · exact medium_eq ext stack acc ht.le c
  | cons s rest ih =>
    intro stack acc tFar ha ht c
    obtain ⟨hd, h1, h2, htr⟩ := hok s List.mem_cons_self
    have ih' := ih (fun s' h' => hok s' (List.mem_cons_of_mem _ h'))
    have hrest := fun s' h' => hok s' (List.mem_cons_of_mem s h')
    unfold shadow
    rw [if_neg (not_le.2 ht)]
    by_cases hin : s.dist < tFar
    · have hseg : (if s.dist < tFar then s.dist else tFar) = s.dist := if_pos hin
      dsimp only
      rw [hseg, if_neg (not_not.2 hin)]
      simp only [inFront, if_pos hin]
      rw [through_cons]
      have hpos : 0 < tFar - s.dist := by linarith
      by_cases hz : (top stack).isSome ∧ allNonpos (medium ext stack acc s.dist)
      · rw [if_pos hz, hzero stack acc s.dist ha hd hz.2 c]; simp [Rnd.mean]
      · rw [if_neg hz]
        have hm : ∀ c, 0 ≤ medium ext stack acc s.dist c := fun c => by
          rw [medium_eq ext stack acc hd]; exact mul_nonneg (ha c) (Real.exp_pos _).le
        have hA : (shadow ext (toggle stack (some s.prim)) (medium ext stack acc s.dist) (tFar - s.dist) rest).mean c =
            acc c * Real.exp (-depth1 ext stack s.dist c) *
              through ext (toggle stack (some s.prim)) (tFar - s.dist) (inFront (tFar - s.dist) rest) c := by
          rw [ih' _ _ _ hm hpos, medium_eq ext stack acc hd]
        have hB : (if allNonpos s.transmission then Rnd.ret fun _ => (0 : ℝ)
            else shadow ext (toggle stack (some s.prim)) (fun c => medium ext stack acc s.dist c * s.transmission c)
              (tFar - s.dist) rest).mean c =
            s.transmission c * (acc c * Real.exp (-depth1 ext stack s.dist c) *
              through ext (toggle stack (some s.prim)) (tFar - s.dist) (inFront (tFar - s.dist) rest) c) := by
          split_ifs with hn
          · have : s.transmission c = 0 := le_antisymm (hn c) (htr c)
            rw [this]; simp [Rnd.mean]
          · rw [ih' _ _ _ (fun c => mul_nonneg (hm c) (htr c)) hpos, medium_eq ext stack acc hd]; ring
        by_cases ho : s.opacity < 1
        · rw [if_pos ho, mean_branch _ h1 h2, hA, hB]
          unfold lets; ring
        · rw [if_neg ho, hB]
          have : s.opacity = 1 := le_antisymm h2 (not_lt.1 ho)
          unfold lets; rw [this]; ring
    · have hseg : (if s.dist < tFar then s.dist else tFar) = tFar := if_neg hin
      dsimp only
      rw [hseg, if_pos hin]
      simp only [inFront, if_neg hin]
      rw [through_nil]
      split_ifs with h
      · rw [hzero stack acc tFar ha ht.le h.2 c]; simp [Rnd.mean]
      · exact medium_eq ext stack acc ht.le c

/-! ## Theorems -/

/-- C126: on average a shadow ray is weakened by Beer-Lambert's law on every piece of its way, in the medium it is in there,
and by what every surface in front of the light lets through; the surfaces behind the light do not matter. -/
theorem C126_mean (stack : Stack) (l : List (Surf n)) (hok : ∀ s ∈ l, s.Ok) (tFar : ℝ) (ht : 0 < tFar) (c : Fin n) :
    (evaluateTransmittance ext tFar stack l).mean c = through ext stack tFar (inFront tFar l) c := by
  unfold evaluateTransmittance
  rw [shadow_mean ext l hok stack _ tFar (fun _ => zero_le_one) ht]
  simp

/-- A pane of glass: half covered, the covered part lets 80 % through; then a fog, then a wall behind the light. -/
example : (evaluateTransmittance (n := 1) (fun _ _ => 2) 5 []
      [⟨1, ⟨0, false⟩, 0.5, fun _ => 0.8, false⟩, ⟨1, ⟨1, true⟩, 0, fun _ => 0, true⟩, ⟨4, ⟨2, false⟩, 1, fun _ => 0, false⟩]).mean 0 =
    0.9 * Real.exp (-6) := by
  rw [C126_mean _ _ _ (by
    intro s hs
    simp only [List.mem_cons, List.not_mem_nil, or_false] at hs
    rcases hs with rfl | rfl | rfl <;> refine ⟨?_, ?_, ?_, fun c => ?_⟩ <;> norm_num) _ (by norm_num)]
  have h1 : inFront (n := 1) 5 [⟨1, ⟨0, false⟩, 0.5, fun _ => 0.8, false⟩, ⟨1, ⟨1, true⟩, 0, fun _ => 0, true⟩,
      ⟨4, ⟨2, false⟩, 1, fun _ => 0, false⟩] =
      [⟨1, ⟨0, false⟩, 0.5, fun _ => 0.8, false⟩, ⟨1, ⟨1, true⟩, 0, fun _ => 0, true⟩] := by
    norm_num [inFront]
  rw [h1, through_cons, through_cons, through_nil]
  have e1 : toggle (toggle [] (some ⟨0, false⟩)) (some ⟨1, true⟩) = [⟨1, true⟩] := by decide
  have e2 : toggle [] (some ⟨0, false⟩) = [] := by decide
  rw [e1, e2]
  norm_num [depth1, top, lets]

/-- A value a program can end with, for some numbers between 0 and 1. -/
inductive Outcome {α : Type} : Rnd α → α → Prop
  | ret (a : α) : Outcome (.ret a) a
  | draw (k : ℝ → Rnd α) (u : ℝ) (v : α) : 0 ≤ u → u ≤ 1 → Outcome (k u) v → Outcome (.draw k) v

theorem outcome_ret {α : Type} {a v : α} (h : Outcome (.ret a) v) : v = a := by cases h; rfl

theorem outcome_draw {α : Type} {k : ℝ → Rnd α} {v : α} (h : Outcome (.draw k) v) : ∃ u, 0 ≤ u ∧ u ≤ 1 ∧ Outcome (k u) v := by
  cases h with
  | draw _ u _ h0 h1 h => exact ⟨u, h0, h1, h⟩

theorem medium_range (he : ∀ p c, 0 ≤ ext p c) (stack : Stack) (acc : Fin n → ℝ) (len : ℝ) (ha : ∀ c, 0 ≤ acc c ∧ acc c ≤ 1)
    (c : Fin n) : 0 ≤ medium ext stack acc len c ∧ medium ext stack acc len c ≤ 1 := by
  unfold medium
  cases top stack with
  | none => exact ha c
  | some p =>
    have h := C34_range (ext p) (he p) len c
    exact ⟨mul_nonneg (ha c).1 h.1.le, mul_le_one₀ (ha c).2 h.1.le h.2.1⟩

open Classical in
/-- C126: the sampled value itself is never negative, and at most 1 when no surface amplifies and no medium glows, whatever
numbers are drawn. -/
theorem C126_range (l : List (Surf n)) (hok : ∀ s ∈ l, s.Ok ∧ ∀ c, s.transmission c ≤ 1) (he : ∀ p c, 0 ≤ ext p c) (tFar : ℝ)
    (stack : Stack) (v : Fin n → ℝ) (hv : Outcome (evaluateTransmittance ext tFar stack l) v) (c : Fin n) :
    0 ≤ v c ∧ v c ≤ 1 := by
  have key : ∀ (l : List (Surf n)), (∀ s ∈ l, s.Ok ∧ ∀ c, s.transmission c ≤ 1) →
      ∀ (stack : Stack) (acc : Fin n → ℝ) (tFar : ℝ), (∀ c, 0 ≤ acc c ∧ acc c ≤ 1) →
      ∀ v, Outcome (shadow ext stack acc tFar l) v → ∀ c, 0 ≤ v c ∧ v c ≤ 1 := by
    intro l
    induction l with
    | nil =>
      intro _ stack acc tFar ha v hv c
      unfold shadow at hv
      dsimp only at hv
      split_ifs at hv
      · rw [outcome_ret hv]; exact ha c
      · rw [outcome_ret hv]; simp
      · rw [outcome_ret hv]; exact medium_range ext he stack acc tFar ha c
    | cons s rest ih =>
      intro hok stack acc tFar ha v hv c
      have ih' := ih (fun s' h' => hok s' (List.mem_cons_of_mem _ h'))
      obtain ⟨⟨_, _, _, h0⟩, h1⟩ := hok s List.mem_cons_self
      have hm := medium_range ext he stack acc (if s.dist < tFar then s.dist else tFar) ha
      unfold shadow at hv
      dsimp only at hv
      have hsolid : ∀ v, Outcome (if allNonpos s.transmission then Rnd.ret fun _ => (0 : ℝ)
          else shadow ext (toggle stack (some s.prim))
            (fun c => medium ext stack acc (if s.dist < tFar then s.dist else tFar) c * s.transmission c) (tFar - s.dist) rest) v →
          ∀ c, 0 ≤ v c ∧ v c ≤ 1 := by
        intro v hv c
        by_cases hn : allNonpos s.transmission
        · rw [if_pos hn] at hv; rw [outcome_ret hv]; simp
        · rw [if_neg hn] at hv
          exact ih' _ _ _ (fun c => ⟨mul_nonneg (hm c).1 (h0 c), mul_le_one₀ (hm c).2 (h0 c) (h1 c)⟩) v hv c
      by_cases ht : tFar ≤ 0
      · rw [if_pos ht] at hv; rw [outcome_ret hv]; exact ha c
      · rw [if_neg ht] at hv
        by_cases hz : (top stack).isSome ∧ allNonpos (medium ext stack acc (if s.dist < tFar then s.dist else tFar))
        · rw [if_pos hz] at hv; rw [outcome_ret hv]; simp
        · rw [if_neg hz] at hv
          by_cases hin : ¬ s.dist < tFar
          · rw [if_pos hin] at hv; rw [outcome_ret hv]; exact hm c
          · rw [if_neg hin] at hv
            by_cases ho : s.opacity < 1
            · rw [if_pos ho] at hv
              obtain ⟨u, _, _, hu⟩ := outcome_draw hv
              by_cases hp : u > s.opacity
              · rw [if_pos hp] at hu; exact ih' _ _ _ hm v hu c
              · rw [if_neg hp] at hu; exact hsolid v hu c
            · rw [if_neg ho] at hv; exact hsolid v hv c
  exact key l hok stack _ tFar (fun _ => ⟨zero_le_one, le_refl _⟩) v hv c

/-- C126: a wall, a surface that is opaque and transmits nothing, in front of the light blocks it, whatever else is on the
way. -/
theorem C126_blocked (stack : Stack) (l : List (Surf n)) (hok : ∀ s ∈ l, s.Ok) (tFar : ℝ) (ht : 0 < tFar)
    (s : Surf n) (hs : s ∈ inFront tFar l) (h1 : s.opacity = 1) (h0 : ∀ c, s.transmission c = 0) (c : Fin n) :
    (evaluateTransmittance ext tFar stack l).mean c = 0 := by
  rw [C126_mean ext stack l hok tFar ht]
  unfold through
  have : lets s c = 0 := by unfold lets; rw [h1, h0]; ring
  rw [List.prod_eq_zero (List.mem_map.2 ⟨s, hs, this⟩), mul_zero]

/-- C126, the full property: what a surface lets through is the same for a path that meets it and for a shadow ray. -/
def C126_full : Prop :=
  ∀ (n : ℕ) (ext : Prim → Fin n → ℝ) (s : Surf n), s.Ok → ∀ (tFar : ℝ), s.dist < tFar → ∀ c,
    s.prim.hasMedium = false →
    (pathThrough s).mean c = (evaluateTransmittance ext tFar [] [s]).mean c

theorem path_mean (s : Surf n) (hs : s.Ok) (c : Fin n) :
    (pathThrough s).mean c = (1 - s.opacity) + s.opacity * (if s.isNull then 1 else 0) := by
  obtain ⟨_, h0, h1, _⟩ := hs
  unfold pathThrough
  dsimp only
  split_ifs with h
  · rw [mean_branch _ h0 h1]; simp [Rnd.mean]
  · rw [mean_branch _ h0 h1]; simp [Rnd.mean, *]
  · have : s.opacity = 1 := le_antisymm h1 (not_lt.1 h)
    simp [Rnd.mean, *]
  · have : s.opacity = 1 := le_antisymm h1 (not_lt.1 h)
    simp [Rnd.mean, *]

/-- C126: they agree exactly for surfaces without opaque part, for reflecting surfaces that transmit nothing and for null
surfaces that transmit everything. -/
theorem C126_agree_iff (s : Surf n) (hs : s.Ok) (tFar : ℝ) (ht : s.dist < tFar) (hm : s.prim.hasMedium = false) (c : Fin n) :
    (pathThrough s).mean c = (evaluateTransmittance ext tFar [] [s]).mean c ↔
      s.opacity = 0 ∨ s.transmission c = if s.isNull then 1 else 0 := by
  rw [path_mean s hs, C126_mean ext [] [s] (fun s' h => by rw [List.mem_singleton.1 h]; exact hs) tFar (by linarith [hs.1])]
  simp only [inFront, if_pos ht]
  rw [through_cons, through_nil]
  have e1 : ∀ len, depth1 ext [] len c = 0 := fun _ => rfl
  have e2 : toggle [] (some s.prim) = [] := by simp [toggle, hm]
  rw [e2, e1, e1]
  unfold lets
  simp only [neg_zero, Real.exp_zero, one_mul, mul_one]
  constructor
  · intro h
    have h' : s.opacity * ((if s.isNull then 1 else 0) - s.transmission c) = 0 := by linarith
    rcases mul_eq_zero.1 h' with h' | h'
    · exact Or.inl h'
    · exact Or.inr (by linarith)
  · rintro (h | h)
    · rw [h]; ring
    · rw [h]

/-- C126 fails: a pane that transmits half of the light lets shadow rays through, but no path; the boundary of a cloud, with a
null reflectance model and the default transmission, lets paths through, but no shadow ray. -/
theorem C126_violated : ¬ C126_full := by
  intro h
  have h1 := h 1 (fun _ _ => 0) ⟨1, ⟨0, false⟩, 1, fun _ => 1 / 2, false⟩
    ⟨by norm_num, by norm_num, le_refl _, fun _ => by norm_num⟩ 2 (by norm_num) 0 rfl
  rw [C126_agree_iff _ _ ⟨by norm_num, by norm_num, le_refl _, fun _ => by norm_num⟩ 2 (by norm_num) rfl] at h1
  norm_num at h1

/-- C126 fails: the cloud. Its boundary has a null reflectance model and the scene's default opacity and transmission: paths
enter, every light outside is black inside. -/
theorem C126_cloud_violated (ext : Prim → Fin n → ℝ) (stack : Stack) (p : Prim) (d tFar : ℝ) (hd : 0 ≤ d) (ht : d < tFar) (c : Fin n) :
    let s : Surf n := ⟨d, p, 1, fun _ => 0, true⟩
    (pathThrough s).mean c = 1 ∧ (evaluateTransmittance ext tFar stack [s]).mean c = 0 := by
  intro s
  have hs : s.Ok := ⟨hd, zero_le_one, le_refl _, fun _ => le_refl _⟩
  refine ⟨?_, ?_⟩
  · rw [path_mean s hs]; simp [s]
  · refine C126_blocked ext stack [s] (fun s' h => by rw [List.mem_singleton.1 h]; exact hs) tFar (by linarith) s ?_ rfl
      (fun _ => rfl) c
    simp [inFront, s, ht]

/-- C126 fails: the light behind a pane. A lamp shines with weight `x` in a direction that both the sampling of the lamp and the
sampling of the surface find, with weights `w` and `1 - w` of the power heuristic (C54). Without the pane both parts add up to
`x`; behind the pane, opaque with transmission `τ`, the first part is `τ w x` and the second none, so the lamp looks darker than the
pane makes it. -/
theorem C126_pane_violated (s : Surf n) (hs : s.Ok) (hn : s.isNull = false) (h1 : s.opacity = 1) (tFar : ℝ) (ht : s.dist < tFar)
    (hm : s.prim.hasMedium = false) (w x : ℝ) (hw : w < 1) (hx : 0 < x) (c : Fin n) (hτ : 0 < s.transmission c) :
    (evaluateTransmittance ext tFar [] [s]).mean c * (w * x) + (pathThrough s).mean c * ((1 - w) * x) < s.transmission c * x := by
  rw [path_mean s hs, C126_mean ext [] [s] (fun s' h => by rw [List.mem_singleton.1 h]; exact hs) tFar (by linarith [hs.1])]
  simp only [inFront, if_pos ht]
  rw [through_cons, through_nil]
  have e1 : ∀ len, depth1 ext [] len c = 0 := fun _ => rfl
  have e2 : toggle [] (some s.prim) = [] := by simp [toggle, hm]
  rw [e2, e1, e1, h1, hn]
  unfold lets
  rw [h1]
  simp only [neg_zero, Real.exp_zero, one_mul, mul_one, sub_self, zero_add, Bool.false_eq_true, if_false, zero_mul, add_zero]
  have : 0 < s.transmission c * x := mul_pos hτ hx
  nlinarith

end
end Huira.Volumes
