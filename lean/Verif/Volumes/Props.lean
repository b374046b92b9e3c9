import Verif.Volumes.Model
import Mathlib.MeasureTheory.Measure.Lebesgue.Basic
import Mathlib.MeasureTheory.Measure.Prod
import Mathlib.MeasureTheory.Integral.IntervalIntegral.IntegrationByParts
import Mathlib.MeasureTheory.Integral.IntervalIntegral.FundThmCalculus
import Mathlib.Analysis.SpecialFunctions.ExpDeriv
import Mathlib.Analysis.SpecialFunctions.Log.Deriv
/-!
# Participating media: properties C33, C34, C72, C76
-/
set_option linter.unusedSimpArgs false
namespace Huira.Volumes
open Real

/-! ## C33 -/

/-- Boundary crossings of properly nested media: whatever is entered is left again before what was entered earlier.
Crossing a null primitive or one without a medium is allowed anywhere. -/
inductive Nested : List (Option Prim) → Prop
  | nil : Nested []
  | null {w : List (Option Prim)} : Nested w → Nested (none :: w)
  | plain {w : List (Option Prim)} (p : Prim) : p.hasMedium = false → Nested w → Nested (some p :: w)
  | pair {v w : List (Option Prim)} (p : Prim) : Nested v → Nested w → Nested (some p :: (v ++ some p :: w))

/-- The media a ray is inside of after the given crossings: those crossed an odd number of times. -/
def inside (w : List (Option Prim)) (p : Prim) : Prop := p.hasMedium = true ∧ w.count (some p) % 2 = 1

/-- **C33 in full**: properly nested crossings restore the state, entering a medium makes it active, and for arbitrary
crossing orders the active medium is one the ray is inside of, whenever there is one. -/
def C33_full : Prop :=
  (∀ (before w : List (Option Prim)), Nested w → top (cross [] (before ++ w)) = top (cross [] before)) ∧
  (∀ (before : List (Option Prim)) (p : Prim), p.hasMedium = true → ¬ inside before p →
    top (cross [] (before ++ [some p])) = some p) ∧
  (∀ (w : List (Option Prim)), match top (cross [] w) with | none => ∀ p, ¬ inside w p | some p => inside w p)

/-- No primitive directly on top of itself, and no more than the capacity. -/
structure Good (s : Stack) : Prop where
  red : ∀ a b t, s ≠ [] → (∃ l, s = l ++ a :: b :: t) → a ≠ b
  len : s.length ≤ capacity

theorem good_tail {a : Prim} {s : Stack} (h : Good (a :: s)) : Good s where
  red := by
    rintro x y t - ⟨l, hl⟩
    exact h.red x y t (by simp) ⟨a :: l, by rw [hl]; rfl⟩
  len := by have := h.len; simp at this; omega

theorem good_cons {a : Prim} {s : Stack} (h : Good s) (ht : s.head? ≠ some a) (hl : s.length < capacity) : Good (a :: s) where
  red := by
    rintro x y t - ⟨l, hl⟩
    cases l with
    | nil =>
      simp only [List.nil_append, List.cons.injEq] at hl
      obtain ⟨rfl, rfl⟩ := hl
      intro e; apply ht; simp [e]
    | cons z l =>
      simp only [List.cons_append, List.cons.injEq] at hl
      exact h.red x y t (by rw [hl.2]; simp) ⟨l, hl.2⟩
  len := by simp; omega

theorem good_nil : Good [] := ⟨fun _ _ _ h => absurd rfl h, by simp⟩

theorem good_toggle (s : Stack) (p : Option Prim) (h : Good s) : Good (toggle s p) := by
  unfold toggle
  cases p with
  | none => exact h
  | some p =>
    simp only
    split
    · exact h
    · split
      · cases s with
        | nil => exact h
        | cons a s => exact good_tail h
      · split
        · exact good_cons h (by assumption) (by assumption)
        · exact h

theorem good_cross (s : Stack) (w : List (Option Prim)) (h : Good s) : Good (cross s w) := by
  induction w generalizing s with
  | nil => exact h
  | cons a w ih => exact ih _ (good_toggle s a h)

theorem toggle_pop (p : Prim) (s : Stack) (hm : p.hasMedium = true) : toggle (p :: s) (some p) = s := by
  simp [toggle, hm]
theorem toggle_push (p : Prim) (s : Stack) (hm : p.hasMedium = true) (ht : s.head? ≠ some p) (hl : s.length < capacity) :
    toggle s (some p) = p :: s := by
  simp [toggle, hm, ht, hl]
theorem toggle_full (p : Prim) (s : Stack) (ht : s.head? ≠ some p) (hl : ¬ s.length < capacity) :
    toggle s (some p) = s := by
  simp [toggle, ht, hl]

theorem toggle_toggle (s : Stack) (p : Option Prim) (h : Good s) : toggle (toggle s p) p = s := by
  cases p with
  | none => rfl
  | some p =>
    by_cases hm : p.hasMedium = true
    · by_cases ht : s.head? = some p
      · cases s with
        | nil => simp at ht
        | cons a s =>
          simp only [List.head?_cons, Option.some.injEq] at ht
          subst ht
          rw [toggle_pop a s hm]
          have hlen := h.len
          simp only [List.length_cons] at hlen
          refine toggle_push a s hm ?_ (by omega)
          cases s with
          | nil => simp
          | cons b s =>
            have := h.red a b s (by simp) ⟨[], rfl⟩
            simp only [List.head?_cons, ne_eq, Option.some.injEq]
            exact fun e => this e.symm
      · by_cases hl : s.length < capacity
        · rw [toggle_push p s hm ht hl, toggle_pop p s hm]
        · rw [toggle_full p s ht hl, toggle_full p s ht hl]
    · simp [toggle, hm]

theorem cross_append (s : Stack) (v w : List (Option Prim)) : cross s (v ++ w) = cross (cross s v) w := by
  simp [cross]

theorem cross_cons (s : Stack) (a : Option Prim) (w : List (Option Prim)) : cross s (a :: w) = cross (toggle s a) w := rfl

theorem cross_nested (s : Stack) (w : List (Option Prim)) (hw : Nested w) (h : Good s) : cross s w = s := by
  induction hw generalizing s with
  | nil => rfl
  | null _ ih => exact ih s h
  | plain p hp _ ih =>
    rw [cross_cons]
    have : toggle s (some p) = s := by simp [toggle, hp]
    rw [this]; exact ih s h
  | pair p _ _ ih1 ih2 =>
    rw [cross_cons, cross_append, ih1 _ (good_toggle s _ h), cross_cons, toggle_toggle s _ h]
    exact ih2 s h

/-- **C33 (partial).** Properly nested crossings, of any depth and starting from any reachable stack, restore the whole
stack and hence the active medium. -/
theorem C33_nested_restores_partial (before w : List (Option Prim)) (hw : Nested w) :
    cross [] (before ++ w) = cross [] before ∧ top (cross [] (before ++ w)) = top (cross [] before) := by
  have : cross [] (before ++ w) = cross [] before := by
    rw [cross_append]; exact cross_nested _ w hw (good_cross _ _ good_nil)
  exact ⟨this, by rw [this]⟩

/-- Crossings of nested, pairwise different media that are not all left yet: `open_` lists the ones still open,
innermost first. -/
inductive OpenNest : List (Option Prim) → List Prim → Prop
  | start : OpenNest [] []
  | other {w : List (Option Prim)} {ps : List Prim} (v : List (Option Prim)) : OpenNest w ps → Nested v → OpenNest (w ++ v) ps
  | enter {w : List (Option Prim)} {ps : List Prim} (p : Prim) : OpenNest w ps → p.hasMedium = true → p ∉ ps →
      OpenNest (w ++ [some p]) (p :: ps)
  | leave {w : List (Option Prim)} {ps : List Prim} (p : Prim) : OpenNest w (p :: ps) → OpenNest (w ++ [some p]) ps

theorem openNest_inv {w : List (Option Prim)} {ps : List Prim} (h : OpenNest w ps) :
    ps.Nodup ∧ (∀ p ∈ ps, p.hasMedium = true) ∧ cross [] w = ps.drop (ps.length - capacity) := by
  induction h with
  | start => exact ⟨List.nodup_nil, by simp, rfl⟩
  | other v _ hv ih =>
    refine ⟨ih.1, ih.2.1, ?_⟩
    rw [(C33_nested_restores_partial _ v hv).1, ih.2.2]
  | @enter w ps p _ hp hn ih =>
    obtain ⟨h1, h2, h3⟩ := ih
    refine ⟨List.nodup_cons.2 ⟨hn, h1⟩, ?_, ?_⟩
    · intro q hq
      rcases List.mem_cons.1 hq with rfl | hq
      · exact hp
      · exact h2 q hq
    · have hhead : (ps.drop (ps.length - capacity)).head? ≠ some p := by
        intro he
        exact hn (List.mem_of_mem_drop (List.mem_of_head? he))
      have e0 : ∀ t, cross t [some p] = toggle t (some p) := fun _ => rfl
      rw [cross_append, h3, e0]
      by_cases hl : ps.length < capacity
      · rw [toggle_push p _ hp hhead (by rw [List.length_drop]; omega)]
        have e1 : ps.length - capacity = 0 := by omega
        have e2 : (p :: ps).length - capacity = 0 := by simp; omega
        rw [e1, e2]; rfl
      · rw [toggle_full p _ hhead (by rw [List.length_drop]; omega)]
        have e2 : (p :: ps).length - capacity = (ps.length - capacity) + 1 := by simp; omega
        rw [e2]; rfl
  | @leave w ps p _ ih =>
    obtain ⟨h1, h2, h3⟩ := ih
    obtain ⟨hn, h1'⟩ := List.nodup_cons.1 h1
    refine ⟨h1', fun q hq => h2 q (List.mem_cons_of_mem _ hq), ?_⟩
    have e0 : ∀ t, cross t [some p] = toggle t (some p) := fun _ => rfl
    rw [cross_append, h3, e0]
    by_cases hl : (p :: ps).length ≤ capacity
    · have e1 : (p :: ps).length - capacity = 0 := by omega
      have e2 : ps.length - capacity = 0 := by simp at hl; omega
      rw [e1, e2]
      exact toggle_pop p ps (h2 p (List.mem_cons_self ..))
    · have e1 : (p :: ps).length - capacity = (ps.length - capacity) + 1 := by simp at hl ⊢; omega
      rw [e1]
      show toggle (ps.drop (ps.length - capacity)) _ = _
      refine toggle_full p _ ?_ ?_
      · intro he
        exact hn (List.mem_of_mem_drop (List.mem_of_head? he))
      · rw [List.length_drop]; simp at hl; omega

/-- **C33 (partial).** Inside at most 8 nested media the innermost one is active (and none when all have been left). -/
theorem C33_innermost_active_partial {w : List (Option Prim)} {ps : List Prim} (h : OpenNest w ps) (hd : ps.length ≤ 8) :
    top (cross [] w) = ps.head? := by
  rw [(openNest_inv h).2.2]
  have : ps.length - capacity = 0 := by unfold capacity; omega
  rw [this]; rfl

/-- **C33 (partial).** For nested media of any depth the active medium is one of those the ray is inside of, and there is
an active medium exactly when it is inside one. -/
theorem C33_active_is_open_partial {w : List (Option Prim)} {ps : List Prim} (h : OpenNest w ps) :
    (∀ p, top (cross [] w) = some p → p ∈ ps) ∧ (top (cross [] w) = none ↔ ps = []) := by
  rw [(openNest_inv h).2.2]
  refine ⟨fun p hp => List.mem_of_mem_drop (List.mem_of_head? hp), ?_⟩
  unfold top
  rw [List.head?_eq_none_iff, List.drop_eq_nil_iff]
  constructor
  · intro hl
    have : ps.length = 0 := by unfold capacity at hl; omega
    exact List.eq_nil_of_length_eq_zero this
  · rintro rfl; simp

/-- **C33 (violated).** With overlapping media A and B crossed in the order A, B, A, B the ray is outside both, but the
stack still holds four entries and B is active. -/
theorem C33_overlap (a b : Prim) (ha : a.hasMedium = true) (hb : b.hasMedium = true) (hab : a ≠ b) :
    cross [] [some a, some b, some a, some b] = [b, a, b, a] ∧
    (∀ p, ¬ inside [some a, some b, some a, some b] p) := by
  constructor
  · simp [cross, toggle, ha, hb, hab, hab.symm, capacity]
  · rintro p ⟨-, hc⟩
    by_cases h1 : a = p
    · subst h1
      simp [List.count_cons, hab.symm] at hc
    · by_cases h2 : b = p
      · subst h2
        simp [List.count_cons, hab] at hc
      · simp [List.count_cons, h1, h2] at hc

theorem C33_violated : ¬ C33_full := by
  rintro ⟨-, -, h⟩
  have h1 := h [some ⟨0, true⟩, some ⟨1, true⟩, some ⟨0, true⟩, some ⟨1, true⟩]
  obtain ⟨h2, h3⟩ := C33_overlap ⟨0, true⟩ ⟨1, true⟩ rfl rfl (by decide)
  rw [h2] at h1
  exact h3 _ h1

/-- **C33 (violated).** The ninth nested medium is ignored: entering it does not make it active. -/
theorem C33_ninth_ignored :
    top (cross [] ((List.range 9).map fun i => some (⟨i, true⟩ : Prim))) = some ⟨7, true⟩ := by decide

/-- Non-vacuity: three nested media, the inner two left again. -/
example : OpenNest [some ⟨0, true⟩, some ⟨1, true⟩, some ⟨2, true⟩, some ⟨2, true⟩] [⟨1, true⟩, ⟨0, true⟩] :=
  .leave ⟨2, true⟩ (.enter ⟨2, true⟩ (.enter ⟨1, true⟩ (.enter ⟨0, true⟩ .start rfl (by simp)) rfl (by simp)) rfl (by simp))

/-! ## C34 -/

/-- **C34.** A constructed constant field has non-negative coefficients, so its extinction is non-negative; construction
fails exactly when a coefficient is negative. -/
theorem C34_construct {n : Nat} (a s : Fin n → ℝ) :
    (constantField a s = none ↔ (∃ c, a c < 0) ∨ ∃ c, s c < 0) ∧
    ∀ p, constantField a s = some p → p = (a, s) ∧ ∀ c, 0 ≤ extinction p c := by
  unfold constantField
  constructor
  · split
    · simp_all
    · split <;> simp_all
  · intro p
    split
    · simp
    · split
      · simp
      · rename_i h1 h2
        intro h
        injection h with h
        subst h
        refine ⟨rfl, fun c => ?_⟩
        push Not at h1 h2
        exact add_nonneg (h1 c) (h2 c)

/-- **C34.** Transmittance is in [0,1] (never 0 in exact arithmetic), 1 at distance 0. -/
theorem C34_range {n : Nat} (ext : Fin n → ℝ) (h : ∀ c, 0 ≤ ext c) (t : ℝ) (c : Fin n) :
    0 < transmittance ext t c ∧ transmittance ext t c ≤ 1 ∧ transmittance ext 0 c = 1 := by
  refine ⟨?_, ?_, by simp [transmittance]⟩
  · unfold transmittance; split
    · exact one_pos
    · exact exp_pos _
  · unfold transmittance; split
    · exact le_refl _
    · rename_i ht
      push Not at ht
      rw [exp_le_one_iff]
      have := mul_nonneg (h c) ht.le
      linarith

/-- **C34.** Transmittance does not increase with distance, and decreases strictly where there is extinction. -/
theorem C34_decreasing {n : Nat} (ext : Fin n → ℝ) (h : ∀ c, 0 ≤ ext c) (s t : ℝ) (hst : s ≤ t) (c : Fin n) :
    transmittance ext t c ≤ transmittance ext s c ∧
    (0 ≤ s → s < t → 0 < ext c → transmittance ext t c < transmittance ext s c) := by
  have e : ∀ t, 0 ≤ t → transmittance ext t c = exp (-ext c * t) := by
    intro t ht
    unfold transmittance
    split
    · have : t = 0 := le_antisymm (by assumption) ht
      simp [this]
    · rfl
  constructor
  · by_cases hs : s ≤ 0
    · have : transmittance ext s c = 1 := by simp [transmittance, hs]
      rw [this]; exact (C34_range ext h t c).2.1
    · push Not at hs
      rw [e s hs.le, e t (hs.le.trans hst), exp_le_exp]
      have := mul_le_mul_of_nonneg_left hst (h c)
      linarith
  · intro hs hlt hc
    rw [e s hs, e t (hs.trans hst), exp_lt_exp]
    have := mul_lt_mul_of_pos_left hlt hc
    linarith

/-- **C34.** Over consecutive segments it multiplies. -/
theorem C34_segments {n : Nat} (ext : Fin n → ℝ) (s t : ℝ) (hs : 0 ≤ s) (ht : 0 ≤ t) (c : Fin n) :
    transmittance ext (s + t) c = transmittance ext s c * transmittance ext t c := by
  have e : ∀ t, 0 ≤ t → transmittance ext t c = exp (-ext c * t) := by
    intro t ht
    unfold transmittance
    split
    · have : t = 0 := le_antisymm (by assumption) ht
      simp [this]
    · rfl
  rw [e s hs, e t ht, e _ (add_nonneg hs ht), ← exp_add]
  ring_nf

/-- Transmittance of a segment: 1 in vacuum. -/
noncomputable def mediumFactor {n : Nat} (ext : Option (Fin n → ℝ)) (len : ℝ) (c : Fin n) : ℝ :=
  ext.elim 1 fun e => transmittance e len c

/-- Transmission along a ray through segments of media and surfaces, as physics has it: the product. -/
noncomputable def rayProduct {n : Nat} : List (Segment n) → ℝ → Option (Fin n → ℝ) → Fin n → ℝ
  | [], len, ext => fun c => mediumFactor ext len c
  | s :: rest, len, ext => fun c => mediumFactor s.ext s.length c * (s.surface.elim 1 (· c)) * rayProduct rest len ext c

theorem applyMedium_eq {n : Nat} (acc : Fin n → ℝ) (ext : Option (Fin n → ℝ)) (len : ℝ) (c : Fin n) :
    applyMedium acc ext len c = acc c * mediumFactor ext len c := by
  cases ext <;> simp [applyMedium, mediumFactor]

theorem alongRay_zero {n : Nat} (f acc : Fin n → ℝ) (ha : ∀ c, 0 ≤ acc c) (h : allNonpos acc) :
    (fun _ => (0 : ℝ)) = fun c => acc c * f c := by
  funext c
  rw [le_antisymm (h c) (ha c), zero_mul]

theorem alongRay_eq {n : Nat} (segs : List (Segment n)) (len : ℝ) (ext : Option (Fin n → ℝ))
    (hs : ∀ s ∈ segs, ∀ tr, s.surface = some tr → ∀ c, 0 ≤ tr c) (acc : Fin n → ℝ) (ha : ∀ c, 0 ≤ acc c) :
    alongRay acc segs len ext = fun c => acc c * rayProduct segs len ext c := by
  have tpos : ∀ (e : Fin n → ℝ) (l : ℝ) (c : Fin n), 0 ≤ transmittance e l c := by
    intro e l c; unfold transmittance; split
    · exact zero_le_one
    · exact (exp_pos _).le
  have mpos : ∀ (e : Option (Fin n → ℝ)) (l : ℝ) (c : Fin n), 0 ≤ mediumFactor e l c := by
    intro e l c
    cases e with
    | none => exact zero_le_one
    | some e => exact tpos e l c
  induction segs generalizing acc with
  | nil =>
    unfold alongRay rayProduct
    simp only
    split
    · rename_i h
      rw [alongRay_zero (fun _ => 1) _ (fun c => by rw [applyMedium_eq]; exact mul_nonneg (ha c) (mpos ext len c)) h.2]
      funext c
      rw [applyMedium_eq, mul_one]
    · funext c
      rw [applyMedium_eq]
  | cons s segs ih =>
    have ih' := ih (fun t ht => hs t (List.mem_cons_of_mem _ ht))
    have hMp : ∀ c, 0 ≤ applyMedium acc s.ext s.length c := by
      intro c; rw [applyMedium_eq]; exact mul_nonneg (ha c) (mpos _ _ _)
    unfold alongRay rayProduct
    simp only
    split
    · rename_i h
      rw [alongRay_zero (fun c => (s.surface.elim 1 (· c)) * rayProduct segs len ext c) _ hMp h.2]
      funext c
      rw [applyMedium_eq]; ring
    · cases hsur : s.surface with
      | none =>
        simp only
        rw [ih' _ hMp]
        funext c
        rw [applyMedium_eq]; simp; ring
      | some tr =>
        have htr := hs s (List.mem_cons_self ..) tr hsur
        simp only
        split
        · rename_i h
          funext c
          simp [le_antisymm (h c) (htr c)]
        · rw [ih' _ (fun c => mul_nonneg (hMp c) (htr c))]
          funext c
          rw [applyMedium_eq]; simp; ring

/-- **C34.** A shadow ray through any number of media and surfaces (with transmissions in [0,1]) returns the product of
the segment transmittances and surface transmissions, early exits included. -/
theorem C34_shadow_ray {n : Nat} (segs : List (Segment n)) (len : ℝ) (ext : Option (Fin n → ℝ))
    (hs : ∀ s ∈ segs, ∀ tr, s.surface = some tr → ∀ c, 0 ≤ tr c ∧ tr c ≤ 1) :
    alongRay (fun _ => 1) segs len ext = rayProduct segs len ext := by
  rw [alongRay_eq segs len ext (fun s h tr ht c => (hs s h tr ht c).1) _ (fun _ => zero_le_one)]
  simp

/-- **C34.** ... and it lies in [0,1]. -/
theorem C34_shadow_ray_range {n : Nat} (segs : List (Segment n)) (len : ℝ) (ext : Option (Fin n → ℝ))
    (hs : ∀ s ∈ segs, ∀ tr, s.surface = some tr → ∀ c, 0 ≤ tr c ∧ tr c ≤ 1)
    (he : ∀ s ∈ segs, ∀ e, s.ext = some e → ∀ c, 0 ≤ e c) (he' : ∀ e, ext = some e → ∀ c, 0 ≤ e c) (c : Fin n) :
    0 ≤ alongRay (fun _ => 1) segs len ext c ∧ alongRay (fun _ => 1) segs len ext c ≤ 1 := by
  rw [C34_shadow_ray segs len ext hs]
  have mr : ∀ (e : Option (Fin n → ℝ)) (l : ℝ), (∀ x, e = some x → ∀ c, 0 ≤ x c) →
      0 ≤ mediumFactor e l c ∧ mediumFactor e l c ≤ 1 := by
    intro e l h
    cases e with
    | none => exact ⟨zero_le_one, le_refl _⟩
    | some e =>
      have := C34_range e (h e rfl) l c
      exact ⟨this.1.le, this.2.1⟩
  induction segs with
  | nil => exact mr ext len he'
  | cons s segs ih =>
    obtain ⟨i0, i1⟩ := ih (fun t ht => hs t (List.mem_cons_of_mem _ ht)) (fun t ht => he t (List.mem_cons_of_mem _ ht))
    obtain ⟨a0, a1⟩ := mr s.ext s.length (he s (List.mem_cons_self ..))
    have hB' : 0 ≤ s.surface.elim 1 (· c) ∧ s.surface.elim 1 (· c) ≤ 1 := by
      cases h : s.surface with
      | none => exact ⟨zero_le_one, le_refl _⟩
      | some tr => exact hs s (List.mem_cons_self ..) tr h c
    unfold rayProduct
    refine ⟨mul_nonneg (mul_nonneg a0 hB'.1) i0, ?_⟩
    exact mul_le_one₀ (mul_le_one₀ a1 hB'.1 hB'.2) i0 i1

example : transmittance (fun _ : Fin 3 => (0.5 : ℝ)) 2 0 = exp (-1) := by
  unfold transmittance; rw [if_neg (by norm_num)]; norm_num

/-! ## C72 -/
open MeasureTheory

/-- Random numbers `u ∈ [0,1)` for which the sampled free path exceeds `d` (or there is no event at all). -/
def exceeds {n : Nat} (ext : Fin n → ℝ) (d : ℝ) : Set ℝ :=
  {u | 0 ≤ u ∧ u < 1 ∧ ∀ t, sampleFreePath ext u = some t → d < t}

/-- **C72 in full**: for every medium the free path exceeds `d` with the probability Beer-Lambert gives for the mean
extinction. -/
def C72_full : Prop := ∀ (n : Nat) (ext : Fin n → ℝ), 0 < n → (∀ c, 0 ≤ ext c) → ∀ d, 0 ≤ d →
  volume (exceeds ext d) = ENNReal.ofReal (exp (-avgExt ext * d))

theorem exceeds_eq {n : Nat} (ext : Fin n → ℝ) (h : 1e-6 < avgExt ext) (d : ℝ) (hd : 0 ≤ d) :
    exceeds ext d = Set.Ioo (1 - exp (-avgExt ext * d)) 1 := by
  have ha : 0 < avgExt ext := lt_trans (by norm_num) h
  ext u
  simp only [exceeds, Set.mem_setOf_eq, Set.mem_Ioo, sampleFreePath, if_neg (not_le.2 h), Option.some.injEq, forall_eq']
  have key : u < 1 → (d < -log (1 - u) / avgExt ext ↔ 1 - exp (-avgExt ext * d) < u) := by
    intro hu
    have hp : 0 < 1 - u := by linarith
    rw [lt_div_iff₀ ha]
    constructor
    · intro h2
      have : log (1 - u) < -avgExt ext * d := by linarith
      have := (log_lt_iff_lt_exp hp).1 this
      linarith
    · intro h2
      have : log (1 - u) < -avgExt ext * d := (log_lt_iff_lt_exp hp).2 (by linarith)
      linarith
  constructor
  · rintro ⟨_, h1, h2⟩
    exact ⟨(key h1).1 h2, h1⟩
  · rintro ⟨h1, h2⟩
    refine ⟨?_, h2, (key h2).2 h1⟩
    have : exp (-avgExt ext * d) ≤ 1 := by
      rw [exp_le_one_iff]
      have := mul_nonneg ha.le hd
      linarith
    linarith

/-- **C72 (partial).** When the mean extinction is above 1e-6 the free path exceeds `d` with probability
`exp(-mean extinction * d)`. -/
theorem C72_distribution_partial {n : Nat} (ext : Fin n → ℝ) (h : 1e-6 < avgExt ext) (d : ℝ) (hd : 0 ≤ d) :
    volume (exceeds ext d) = ENNReal.ofReal (exp (-avgExt ext * d)) := by
  rw [exceeds_eq ext h d hd, Real.volume_Ioo]
  congr 1
  ring

/-- **C72 (partial).** Distances are non-negative and finite; a vacuum never scatters. -/
theorem C72_nonneg_partial {n : Nat} (ext : Fin n → ℝ) (u t : ℝ) (h0 : 0 ≤ u) (h1 : u < 1)
    (h : sampleFreePath ext u = some t) : 0 ≤ t := by
  unfold sampleFreePath at h
  split at h
  · simp at h
  · rename_i ha
    push Not at ha
    injection h with h
    rw [← h]
    apply div_nonneg _ (le_trans (by norm_num) ha.le)
    have := log_nonpos (show 0 ≤ 1 - u by linarith) (by linarith)
    linarith
theorem C72_vacuum_partial {n : Nat} (u : ℝ) : sampleFreePath (fun _ : Fin n => (0 : ℝ)) u = none := by
  unfold sampleFreePath avgExt
  rw [if_pos]
  simp
  norm_num

/-- **C72 (violated).** A thin medium (mean extinction at most 1e-6 per unit) is never sampled, over any distance. -/
theorem C72_thin_ignored {n : Nat} (ext : Fin n → ℝ) (h : avgExt ext ≤ 1e-6) (d : ℝ) : volume (exceeds ext d) = 1 := by
  have : exceeds ext d = Set.Ico 0 1 := by
    ext u
    simp [exceeds, sampleFreePath, if_pos h]
  rw [this, Real.volume_Ico]
  norm_num

theorem C72_violated : ¬ C72_full := by
  intro h
  have h1 := h 1 (fun _ => 1e-6) one_pos (fun _ => by norm_num) 1e6 (by norm_num)
  have ha : avgExt (fun _ : Fin 1 => (1e-6 : ℝ)) = 1e-6 := by simp [avgExt]
  rw [C72_thin_ignored _ (le_of_eq ha), ha] at h1
  have h2 : ENNReal.ofReal (exp (-1e-6 * 1e6)) < 1 := by
    rw [ENNReal.ofReal_lt_one, exp_lt_one_iff]
    norm_num
  rw [← h1] at h2
  exact lt_irrefl _ h2

/-- Non-vacuity of the partial theorem: 10 % of the photons pass ln 10 mean free paths. -/
example : volume (exceeds (fun _ : Fin 3 => (2 : ℝ)) 1) = ENNReal.ofReal (exp (-2)) := by
  have ha : avgExt (fun _ : Fin 3 => (2 : ℝ)) = 2 := by simp [avgExt]
  rw [C72_distribution_partial _ (by rw [ha]; norm_num) 1 zero_le_one, ha]
  norm_num

/-! ### The throughput factors make the estimator unbiased per channel -/

/-- Reaching the surface: factor times probability is the channel's own transmittance. -/
theorem C72_surface_unbiased_partial {n : Nat} (ext scat : Fin n → ℝ) (h : 1e-6 < avgExt ext) (hitT : ℝ) (hh : 0 ≤ hitT) :
    ∃ w : Fin n → ℝ, (∀ u ∈ exceeds ext hitT, flight ext scat hitT u = .surface w) ∧
      ∀ c, w c * (volume (exceeds ext hitT)).toReal = exp (-ext c * hitT) := by
  refine ⟨fun c => exp (-ext c * hitT) * (1 / exp (-avgExt ext * hitT)), ?_, ?_⟩
  · rintro u ⟨_, _, hu⟩
    unfold flight
    simp only
    cases hs : sampleFreePath ext u with
    | none => rfl
    | some t => simp only; rw [if_neg (not_lt.2 (hu t hs).le)]
  · intro c
    rw [C72_distribution_partial ext h hitT hh, ENNReal.toReal_ofReal (exp_pos _).le]
    have := (exp_pos (-avgExt ext * hitT)).ne'
    field_simp

/-- The channel's contribution when a scattering event happens, else 0. -/
noncomputable def scatterWeight {n : Nat} (ext scat : Fin n → ℝ) (hitT : ℝ) (c : Fin n) (u : ℝ) : ℝ :=
  match flight ext scat hitT u with
  | .scatter _ w => w c
  | .surface _ => 0

/-- Scattering before the surface: the expected factor is the true in-scattered fraction, the integral of scattering
coefficient times transmittance along the segment. -/
theorem C72_scatter_unbiased_partial {n : Nat} (ext scat : Fin n → ℝ) (h : 1e-6 < avgExt ext) (hitT : ℝ) (hh : 0 ≤ hitT)
    (c : Fin n) :
    ∫ u in (0 : ℝ)..(1 - exp (-avgExt ext * hitT)), scatterWeight ext scat hitT c u =
      ∫ t in (0 : ℝ)..hitT, scat c * exp (-ext c * t) := by
  have ha : 0 < avgExt ext := lt_trans (by norm_num) h
  obtain ⟨σ, hσ⟩ : ∃ σ, σ = avgExt ext := ⟨_, rfl⟩
  let g : ℝ → ℝ := fun u => scat c * exp (-ext c * (-log (1 - u) / σ)) * (1 / (σ * exp (-σ * (-log (1 - u) / σ))))
  have hU : exp (-σ * hitT) ≤ 1 := by
    rw [exp_le_one_iff, hσ]; have := mul_nonneg ha.le hh; linarith
  have hlt : 0 < exp (-σ * hitT) := exp_pos _
  rw [← hσ]
  have e1 : ∫ u in (0 : ℝ)..(1 - exp (-σ * hitT)), scatterWeight ext scat hitT c u =
      ∫ u in (0 : ℝ)..(1 - exp (-σ * hitT)), g u := by
    apply intervalIntegral.integral_congr_ae
    have : ∀ᵐ u : ℝ, u ≠ 1 - exp (-σ * hitT) := by
      simp [ae_iff]
    filter_upwards [this] with u hne hu
    rw [Set.uIoc_of_le (by linarith)] at hu
    have hu1 : u < 1 - exp (-σ * hitT) := lt_of_le_of_ne hu.2 hne
    have hp : 0 < 1 - u := by linarith
    have ht : -log (1 - u) / σ < hitT := by
      rw [div_lt_iff₀ (hσ ▸ ha)]
      have : -σ * hitT < log (1 - u) := (lt_log_iff_exp_lt hp).2 (by linarith)
      linarith
    unfold scatterWeight flight sampleFreePath
    simp only [← hσ]
    rw [if_neg (not_le.2 (hσ ▸ h))]
    simp only
    rw [if_pos ht]
  rw [e1]
  have hderiv : ∀ x ∈ Set.uIcc 0 hitT, HasDerivAt (fun t => 1 - exp (-σ * t)) (σ * exp (-σ * x)) x := by
    intro x _
    have h1 : HasDerivAt (fun t : ℝ => -σ * t) (-σ) x := by simpa using (hasDerivAt_id x).const_mul (-σ)
    have h2 := (h1.exp).const_sub 1
    have e3 : σ * exp (-σ * x) = -(exp (-σ * x) * -σ) := by ring
    rw [e3]
    exact h2
  have hcont : ContinuousOn g ((fun t => 1 - exp (-σ * t)) '' Set.uIcc 0 hitT) := by
    have hlog : ContinuousOn (fun u : ℝ => log (1 - u)) ((fun t => 1 - exp (-σ * t)) '' Set.uIcc 0 hitT) := by
      apply ContinuousOn.log
      · exact (continuous_const.sub continuous_id).continuousOn
      · rintro _ ⟨t, _, rfl⟩
        simp [(exp_pos (-σ * t)).ne']
    have hq : ContinuousOn (fun u : ℝ => -log (1 - u) / σ) ((fun t => 1 - exp (-σ * t)) '' Set.uIcc 0 hitT) :=
      hlog.neg.div_const σ
    refine ((continuousOn_const.mul (continuous_exp.comp_continuousOn (continuousOn_const.mul hq)))).mul ?_
    refine continuousOn_const.div (continuousOn_const.mul (continuous_exp.comp_continuousOn (continuousOn_const.mul hq))) ?_
    intro u _
    exact (mul_pos (hσ ▸ ha) (exp_pos _)).ne'
  have hsub := intervalIntegral.integral_comp_mul_deriv' (g := g) hderiv
    ((continuous_const.mul (continuous_exp.comp (continuous_const.mul continuous_id))).continuousOn) hcont
  simp only [mul_zero, exp_zero, sub_self] at hsub
  rw [← hsub]
  apply intervalIntegral.integral_congr
  intro t _
  simp only [Function.comp, g]
  have hσ0 : σ ≠ 0 := (hσ ▸ ha).ne'
  have e2 : -log (1 - (1 - exp (-σ * t))) / σ = t := by
    rw [sub_sub_cancel, log_exp]; field_simp
  rw [e2]
  have := (exp_pos (-σ * t)).ne'
  field_simp

/-! ## C76 -/

/-- **C76.** Scattered directions are unit vectors. -/
theorem C76_unit (u v : ℝ) (h0 : 0 ≤ u) (h1 : u ≤ 1) :
    (phaseSample u v).1 ^ 2 + (phaseSample u v).2.1 ^ 2 + (phaseSample u v).2.2 ^ 2 = 1 := by
  unfold phaseSample
  simp only
  have hnn : 0 ≤ 1 - (1 - 2 * u) * (1 - 2 * u) := by nlinarith
  rw [max_eq_right hnn]
  have hs := sq_sqrt hnn
  have hc := sin_sq_add_cos_sq (2 * π * v)
  calc _ = sqrt (1 - (1 - 2 * u) * (1 - 2 * u)) ^ 2 * (sin (2 * π * v) ^ 2 + cos (2 * π * v) ^ 2) + (1 - 2 * u) ^ 2 := by ring
    _ = 1 := by rw [hs, hc]; ring

/-- Random pairs whose direction has height in `[z0,z1]` and azimuth angle `2πv` in `[φ0,φ1]`. -/
def patch (z0 z1 φ0 φ1 : ℝ) : Set (ℝ × ℝ) :=
  {p | 0 ≤ p.1 ∧ p.1 ≤ 1 ∧ 0 ≤ p.2 ∧ p.2 ≤ 1 ∧
    z0 ≤ (phaseSample p.1 p.2).2.2 ∧ (phaseSample p.1 p.2).2.2 ≤ z1 ∧ φ0 ≤ 2 * π * p.2 ∧ 2 * π * p.2 ≤ φ1}

/-- **C76.** The probability of any latitude-longitude patch is its area on the unit sphere, `(z1-z0)(φ1-φ0)`, times the
phase function value: directions are distributed with the density reported with them. -/
theorem C76_uniform (z0 z1 φ0 φ1 : ℝ) (h1 : -1 ≤ z0) (h2 : z0 ≤ z1) (h3 : z1 ≤ 1) (h4 : 0 ≤ φ0) (h5 : φ0 ≤ φ1)
    (h6 : φ1 ≤ 2 * π) :
    volume (patch z0 z1 φ0 φ1) = ENNReal.ofReal ((z1 - z0) * (φ1 - φ0) * phaseEval) := by
  have hp := pi_pos
  have e : patch z0 z1 φ0 φ1 = Set.Icc ((1 - z1) / 2) ((1 - z0) / 2) ×ˢ Set.Icc (φ0 / (2 * π)) (φ1 / (2 * π)) := by
    ext ⟨u, v⟩
    simp only [patch, phaseSample, Set.mem_setOf_eq, Set.mem_prod, Set.mem_Icc]
    have hv0 : φ0 / (2 * π) ≤ v ↔ φ0 ≤ 2 * π * v := by rw [div_le_iff₀ (by positivity), mul_comm]
    have hv1 : v ≤ φ1 / (2 * π) ↔ 2 * π * v ≤ φ1 := by rw [le_div_iff₀ (by positivity), mul_comm]
    rw [hv0, hv1]
    constructor
    · rintro ⟨a, b, c, d, e, f, g, i⟩
      exact ⟨⟨by linarith, by linarith⟩, g, i⟩
    · rintro ⟨⟨a, b⟩, c, d⟩
      refine ⟨by linarith, by linarith, ?_, ?_, by linarith, by linarith, c, d⟩
      · by_contra hneg
        push Not at hneg
        have : 2 * π * v < 0 := mul_neg_of_pos_of_neg (by positivity) hneg
        linarith
      · by_contra hbig
        push Not at hbig
        have : 2 * π * 1 < 2 * π * v := mul_lt_mul_of_pos_left hbig (by positivity)
        linarith
  rw [e, Measure.volume_eq_prod, Measure.prod_prod, Real.volume_Icc, Real.volume_Icc, ← ENNReal.ofReal_mul (by linarith)]
  congr 1
  unfold phaseEval
  field_simp
  ring

/-- Non-vacuity: the upper hemisphere has probability 1/2. -/
example : volume (patch 0 1 0 (2 * π)) = ENNReal.ofReal (1 / 2) := by
  rw [C76_uniform 0 1 0 (2 * π) (by norm_num) (by norm_num) (le_refl _) (le_refl _) (by have := pi_pos; linarith) (le_refl _)]
  congr 1
  unfold phaseEval
  have := pi_pos
  field_simp
  ring

end Huira.Volumes
