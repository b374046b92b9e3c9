import Verif.Volumes.Props
import Verif.Render.StatsProps
/-!
# C137: fully transparent surfaces are invisible

Models what one sample of a pixel brings back along a straight line of sight that crosses any number of surfaces with an opacity
below 1 before it meets the background, a lamp or a body: the turns of the path loop of `Renderer::path_trace_`
(`include/huira_impl/render/renderer.ipp` 190-212, 278-303, 354-371) with the medium stack, in the arithmetic of the machine
(infinity and NaN).  Every primitive added to a scene without a medium gets the scene's default one, a vacuum
(`include/huira_impl/scene/scene.ipp` 79-81, 226-250), so passing a cut-out always changes the stack.

Simplifications.  No rounding; distances are those from where the ray starts again; the radiance of what is met at the end is given.
-/
set_option linter.unusedSimpArgs false
namespace Huira.Volumes
open Huira.Stats

noncomputable section
open Classical

/-! ## Model -/

/-- `std::exp` on machine numbers (no overflow of finite arguments). -/
def xexp : XF → XF
  | .nan => .nan
  | .ninf => .fin 0
  | .pinf => .pinf
  | .fin x => .fin (Real.exp x)

/-- A surface on the line of sight: distance from where the ray (re)started, primitive, opacity. -/
structure Cutout where
  dist : ℝ
  prim : Prim
  opacity : ℝ

/-- What is met at the end: its distance (infinite for the background: `HitRecord::t`, `include/huira/geometry/ray.hpp` 44, stays
infinite when nothing is hit) and its radiance per bin. -/
structure Behind (n : ℕ) where
  dist : XF
  value : Fin (n + 1) → ℝ

/-- The random numbers of one turn: free path (medium.hpp 93) and opacity (renderer.ipp 355). -/
structure Draw where
  free : ℝ
  alpha : ℝ

/-- What became of the sample: it was scattered by a medium, it was stopped by a surface (and shaded there), or it reached the end
and brings back the radiance. -/
inductive Seen (n : ℕ) where
  | scattered
  | stopped
  | light (v : Spec n)

/-- Lines 278-282: transmittance over sampling probability. -/
def reach {n : ℕ} (ext : Fin (n + 1) → ℝ) (t : XF) (thr : Spec n) : Spec n := fun c =>
  XF.mul (XF.mul (thr c) (xexp (XF.mul (.fin (-ext c)) t))) (XF.div (.fin 1) (xexp (XF.mul (.fin (-avgExt ext)) t)))

/-- Lines 201-283: the way to the next hit at distance `t`; none: a scattering event comes first. -/
def fly {n : ℕ} (ext : Prim → Fin (n + 1) → ℝ) (stack : Stack) (t : XF) (u : ℝ) (thr : Spec n) : Option (Spec n) :=
  match top stack with
  | none => some thr
  | some p =>
    match sampleFreePath (ext p) u with
    | some tm => if XF.lt (.fin tm) t then none else some (reach (ext p) t thr)
    | none => some (reach (ext p) t thr)

/-- The turns of the path loop along the line of sight (lines 198-212, 278-303, 307-336, 354-371).  `bounce` stays 0, so all of it
is direct radiance and a lamp has weight 1. -/
def look {n : ℕ} (ext : Prim → Fin (n + 1) → ℝ) : Stack → Spec n → List Cutout → Behind n → (ℕ → Draw) → Seen n
  | stack, thr, [], b, d =>
    match fly ext stack b.dist (d 0).free thr with
    | none => .scattered
    | some thr => .light fun c => XF.mul (thr c) (.fin (b.value c))
  | stack, thr, s :: l, b, d =>
    match fly ext stack (.fin s.dist) (d 0).free thr with
    | none => .scattered
    | some thr =>
      if s.opacity < 1 ∧ (d 0).alpha > s.opacity then look ext (toggle stack (some s.prim)) thr l b fun i => d (i + 1)
      else .stopped

/-- A sample of the camera: empty stack, throughput 1 (lines 187, 196). -/
def sight {n : ℕ} (ext : Prim → Fin (n + 1) → ℝ) (l : List Cutout) (b : Behind n) (d : ℕ → Draw) : Seen n :=
  look ext [] (fun _ => .fin 1) l b d

/-- The sample given to the statistics of the pixel (lines 493-495): direct radiance, no indirect radiance. -/
def sampleOf {n : ℕ} : Seen n → Sample n
  | .light v => (v, fun _ => .fin 0)
  | _ => (fun _ => .fin 0, fun _ => .fin 0)

/-! ## Specification -/

/-- The radiance of what is behind, unchanged. -/
def clear {n : ℕ} (b : Behind n) : Seen n := .light fun c => .fin (b.value c)

/-- The surfaces are fully transparent and none has a medium of its own: each is a vacuum inside. -/
def Invisible {n : ℕ} (ext : Prim → Fin (n + 1) → ℝ) (l : List Cutout) : Prop :=
  ∀ s ∈ l, s.opacity = 0 ∧ ∀ c, ext s.prim c = 0

/-- The drawn numbers are in `(0, 1)` (an exact 0 has probability 0). -/
def Fair (d : ℕ → Draw) : Prop := ∀ i, (0 < (d i).alpha ∧ (d i).alpha < 1) ∧ 0 ≤ (d i).free ∧ (d i).free < 1

/-- **C137 in full**: every sample whose line of sight crosses fully transparent surfaces only brings back the radiance of what is
behind them. -/
def C137_full : Prop :=
  ∀ (n : ℕ) (ext : Prim → Fin (n + 1) → ℝ) (l : List Cutout) (b : Behind n) (d : ℕ → Draw),
    (b.dist = .pinf ∨ ∃ t, b.dist = .fin t ∧ 0 ≤ t) → (∀ s ∈ l, 0 ≤ s.dist) → Invisible ext l → Fair d → sight ext l b d = clear b

/-! ## Lemmas -/

theorem avg_zero {n : ℕ} {e : Fin (n + 1) → ℝ} (h : ∀ c, e c = 0) : avgExt e = 0 := by simp [avgExt, h]

/-- In a vacuum nothing is lost over a finite distance. -/
theorem reach_vacuum {n : ℕ} {e : Fin (n + 1) → ℝ} (h : ∀ c, e c = 0) (t : ℝ) (v : Fin (n + 1) → ℝ) :
    reach e (.fin t) (fun c => .fin (v c)) = fun c => .fin (v c) := by
  funext c
  simp [reach, h, avg_zero h, XF.mul, xexp, XF.div]

theorem free_vacuum {n : ℕ} {e : Fin (n + 1) → ℝ} (h : ∀ c, e c = 0) (u : ℝ) : sampleFreePath e u = none := by
  unfold sampleFreePath
  rw [if_pos (by rw [avg_zero h]; norm_num)]

/-- Whatever the throughput, a way of infinite length in a thin medium gives NaN in every bin. -/
theorem reach_endless {n : ℕ} {e : Fin (n + 1) → ℝ} (h : ∀ c, 0 ≤ e c) (thr : Spec n) (c : Fin (n + 1)) : reach e .pinf thr c = .nan := by
  rcases (h c).eq_or_lt with h0 | h0
  · have : XF.mul (.fin (-e c)) .pinf = .nan := by rw [← h0]; simp [XF.mul, XF.infTimes]
    unfold reach
    rw [this]
    cases thr c <;> simp [xexp, XF.mul]
  · have ha : 0 < avgExt e := by
      unfold avgExt
      apply div_pos _ (by positivity)
      exact lt_of_lt_of_le h0 (Finset.single_le_sum (fun i _ => h i) (Finset.mem_univ c))
    have h1 : XF.mul (.fin (-e c)) .pinf = .ninf := by
      simp [XF.mul, XF.infTimes, h0, not_lt.2 h0.le]
    have h2 : XF.mul (.fin (-avgExt e)) .pinf = .ninf := by
      simp [XF.mul, XF.infTimes, ha, not_lt.2 ha.le]
    unfold reach
    rw [h1, h2]
    cases thr c <;> simp [xexp, XF.mul, XF.div, XF.infTimes, XF.neg]

theorem fly_vacuum {n : ℕ} {ext : Prim → Fin (n + 1) → ℝ} {stack : Stack} (h : ∀ p ∈ stack, ∀ c, ext p c = 0) (t u : ℝ)
    (v : Fin (n + 1) → ℝ) : fly ext stack (.fin t) u (fun c => .fin (v c)) = some fun c => .fin (v c) := by
  unfold fly
  cases hs : top stack with
  | none => rfl
  | some p =>
    have hp : p ∈ stack := List.mem_of_head? hs
    simp only [free_vacuum (h p hp), reach_vacuum (h p hp)]

theorem toggle_mem {s : Stack} {p q : Prim} (h : q ∈ toggle s (some p)) : q ∈ s ∨ q = p := by
  unfold toggle at h
  simp only at h
  split at h
  · exact .inl h
  · split at h
    · exact .inl (List.mem_of_mem_tail h)
    · split at h
      · rcases List.mem_cons.1 h with h | h
        · exact .inr h
        · exact .inl h
      · exact .inl h

/-- The crossings of the line of sight. -/
def crossings (l : List Cutout) : List (Option Prim) := l.map fun s => some s.prim

/-- What is left after crossing the surfaces: the last stretch, in the medium left on the stack. -/
theorem look_eq {n : ℕ} {ext : Prim → Fin (n + 1) → ℝ} (b : Behind n) : ∀ (l : List Cutout) (stack : Stack) (v : Fin (n + 1) → ℝ)
    (d : ℕ → Draw), (∀ p ∈ stack, ∀ c, ext p c = 0) → Invisible ext l → Fair d →
    look ext stack (fun c => .fin (v c)) l b d = look ext (cross stack (crossings l)) (fun c => .fin (v c)) [] b (fun i => d (i + l.length)) ∧
      ∀ p ∈ cross stack (crossings l), ∀ c, ext p c = 0 := by
  intro l
  induction l with
  | nil => intro stack v d hs _ _; exact ⟨rfl, hs⟩
  | cons s l ih =>
    intro stack v d hs hi hf
    have h1 := hi s (by simp)
    have hs' : ∀ p ∈ toggle stack (some s.prim), ∀ c, ext p c = 0 := by
      intro p hp
      rcases toggle_mem hp with h | h
      · exact hs p h
      · rw [h]; exact h1.2
    have := ih (toggle stack (some s.prim)) v (fun i => d (i + 1)) hs' (fun x hx => hi x (by simp [hx])) (fun i => hf (i + 1))
    have hx : ∀ i, i + l.length + 1 = i + (s :: l).length := fun i => by simp [Nat.add_assoc]
    refine ⟨?_, ?_⟩
    · show (match fly ext stack (.fin s.dist) (d 0).free (fun c => .fin (v c)) with
        | none => Seen.scattered
        | some thr => if s.opacity < 1 ∧ (d 0).alpha > s.opacity then look ext (toggle stack (some s.prim)) thr l b fun i => d (i + 1) else .stopped) = _
      rw [fly_vacuum hs]
      simp only
      rw [if_pos (show s.opacity < 1 ∧ (d 0).alpha > s.opacity by rw [h1.1]; exact ⟨one_pos, (hf 0).1.1⟩), this.1]
      simp only [hx]
      rfl
    · exact this.2

/-! ## C137 -/

/-- **C137 (partial): a lamp or a body behind.** Through any number of fully transparent surfaces, open or closed, in any order, what
is at a finite distance behind them is seen unchanged. -/
theorem C137_finite_partial {n : ℕ} (ext : Prim → Fin (n + 1) → ℝ) (l : List Cutout) (b : Behind n) (d : ℕ → Draw) {t : ℝ} (hb : b.dist = .fin t)
    (hi : Invisible ext l) (hf : Fair d) : sight ext l b d = clear b := by
  have := look_eq (ext := ext) b l [] (fun _ => 1) d (by simp) hi hf
  rw [sight, this.1, look, hb, fly_vacuum this.2]
  simp [clear, XF.mul]

/-- **C137 (the background, exactly).** The background is seen unchanged if and only if the surfaces crossed leave no medium on the
renderer's stack; otherwise the sample is NaN in every bin. -/
theorem C137_background_iff {n : ℕ} (ext : Prim → Fin (n + 1) → ℝ) (l : List Cutout) (b : Behind n) (d : ℕ → Draw) (hb : b.dist = .pinf)
    (hi : Invisible ext l) (hf : Fair d) :
    (sight ext l b d = clear b ↔ cross [] (crossings l) = []) ∧
      (cross [] (crossings l) ≠ [] → sight ext l b d = .light fun _ => .nan) := by
  have := look_eq (ext := ext) b l [] (fun _ => 1) d (by simp) hi hf
  have lost : cross [] (crossings l) ≠ [] → sight ext l b d = .light fun _ => .nan := by
    intro h
    rw [sight, this.1, look, hb]
    unfold fly
    cases hs : cross [] (crossings l) with
    | nil => exact absurd hs h
    | cons p r =>
      have hp : ∀ c, ext p c = 0 := this.2 p (by rw [hs]; simp)
      simp only [top, List.head?_cons, free_vacuum hp]
      congr 1
      funext c
      rw [reach_endless (fun c => (hp c).ge)]
      rfl
  refine ⟨⟨fun h => ?_, fun h => ?_⟩, lost⟩
  · by_contra hne
    rw [lost hne, clear] at h
    injection h with h
    have := congrFun h 0
    simp at this
  · rw [sight, this.1, h, look]
    simp [fly, top, clear, XF.mul]

/-- **C137 (partial): closed bodies.** Closed, properly nested fully transparent bodies (every surface entered is left again) hide
nothing: neither a lamp or body at any distance nor the background. -/
theorem C137_closed_partial {n : ℕ} (ext : Prim → Fin (n + 1) → ℝ) (l : List Cutout) (b : Behind n) (d : ℕ → Draw)
    (hb : b.dist = .pinf ∨ ∃ t, b.dist = .fin t ∧ 0 ≤ t) (hn : Nested (crossings l)) (hi : Invisible ext l) (hf : Fair d) :
    sight ext l b d = clear b := by
  rcases hb with hb | ⟨t, hb, -⟩
  · exact (C137_background_iff ext l b d hb hi hf).1.2 (cross_nested [] _ hn good_nil)
  · exact C137_finite_partial ext l b d hb hi hf

/-- **C137, violated (an open sheet).** One fully transparent sheet - a leaf cut out of a picture, seen against the background:
the sample is NaN in every bin. -/
theorem C137_sheet_lost {n : ℕ} (ext : Prim → Fin (n + 1) → ℝ) (s : Cutout) (hm : s.prim.hasMedium = true) (b : Behind n) (d : ℕ → Draw)
    (hb : b.dist = .pinf) (hi : Invisible ext [s]) (hf : Fair d) : sight ext [s] b d = .light fun _ => .nan := by
  refine (C137_background_iff ext [s] b d hb hi hf).2 ?_
  have : cross [] (crossings [s]) = [s.prim] := toggle_push s.prim [] hm (by simp) (by simp [capacity])
  rw [this]; simp

def exDraws : ℕ → Draw := fun _ => ⟨1 / 2, 1 / 2⟩
theorem exDraws_fair : Fair exDraws := fun _ => by norm_num [exDraws]

def exSheet : Cutout := ⟨3, ⟨0, true⟩, 0⟩
def exSky : Behind 0 := ⟨.pinf, fun _ => 1⟩

/-- **C137, violated.** -/
theorem C137_violated : ¬ C137_full := by
  intro h
  have h1 := h 0 (fun _ _ => 0) [exSheet] exSky exDraws (.inl rfl) (by simp [exSheet]) (by simp [Invisible, exSheet]) exDraws_fair
  rw [C137_sheet_lost _ exSheet rfl exSky exDraws rfl (by simp [Invisible, exSheet]) exDraws_fair, clear] at h1
  injection h1 with h1
  have := congrFun h1 0
  simp [exSky] at this

/-- **C137, violated (the pixel).** When the line of sight of every sample of a pixel crosses an odd number of times the same open
fully transparent sheet in front of the background - more generally, leaves a medium on the stack - the samples are all thrown
away and the pixel is NaN in every bin, whatever the background. -/
theorem C137_pixel_lost {n : ℕ} (g : Settings) (ext : Prim → Fin (n + 1) → ℝ) (ss : List (List Cutout × Behind n × (ℕ → Draw)))
    (h : ∀ x ∈ ss, x.2.1.dist = .pinf ∧ Invisible ext x.1 ∧ Fair x.2.2 ∧ cross [] (crossings x.1) ≠ []) (c : Fin (n + 1)) :
    (pixelRadiance g (ss.map fun x => sampleOf (sight ext x.1 x.2.1 x.2.2)) c).isNan := by
  apply C79_violated_none
  simp only [accepted, List.filter_eq_nil_iff, List.mem_map]
  rintro _ ⟨x, hx, rfl⟩
  obtain ⟨hb, hi, hf, hc⟩ := h x hx
  rw [(C137_background_iff ext x.1 x.2.1 x.2.2 hb hi hf).2 hc]
  simp [skipped, sampleOf, radiance, XF.add, XF.isNan]

/-- **C137 (thin media).** The same for media that are not quite a vacuum: a line of sight that leaves to the background while the
medium on the stack has a mean extinction of at most 1e-6 is NaN in every bin. -/
theorem C137_thin_lost {n : ℕ} (ext : Prim → Fin (n + 1) → ℝ) (p : Prim) (stack : Stack) (h0 : ∀ c, 0 ≤ ext p c) (h1 : avgExt (ext p) ≤ 1e-6)
    (thr : Spec n) (b : Behind n) (hb : b.dist = .pinf) (d : ℕ → Draw) : look ext (p :: stack) thr [] b d = .light fun _ => .nan := by
  have : sampleFreePath (ext p) (d 0).free = none := by unfold sampleFreePath; rw [if_pos h1]
  rw [look, hb]
  unfold fly
  simp only [top, List.head?_cons, this]
  congr 1
  funext c
  rw [reach_endless h0]
  rfl

/-- Through a real medium: a ray in a medium with a mean extinction above 1e-6 never leaves to the background, it is scattered. -/
theorem C137_thick_scattered {n : ℕ} (ext : Prim → Fin (n + 1) → ℝ) (p : Prim) (stack : Stack) (h1 : 1e-6 < avgExt (ext p))
    (thr : Spec n) (b : Behind n) (hb : b.dist = .pinf) (d : ℕ → Draw) : look ext (p :: stack) thr [] b d = .scattered := by
  have : sampleFreePath (ext p) (d 0).free = some (-Real.log (1 - (d 0).free) / avgExt (ext p)) := by
    unfold sampleFreePath; rw [if_neg (not_le.2 h1)]
  rw [look, hb]
  unfold fly
  simp only [top, List.head?_cons, this]
  rw [if_pos (show XF.lt (.fin _) .pinf from trivial)]

/-! ## Cases -/

/-- A body of one surface crossed twice, with a sheet inside that is also crossed twice: closed. -/
example : Nested (crossings [⟨1, ⟨0, true⟩, 0⟩, ⟨2, ⟨1, true⟩, 0⟩, ⟨0, ⟨1, true⟩, 0⟩, ⟨5, ⟨0, true⟩, 0⟩]) :=
  Nested.pair (v := [some ⟨1, true⟩, some ⟨1, true⟩]) (w := []) ⟨0, true⟩ (Nested.pair (v := []) (w := []) _ .nil .nil) .nil

example : sight (n := 2) (fun _ _ => 0) [⟨1, ⟨0, true⟩, 0⟩, ⟨2, ⟨1, true⟩, 0⟩] ⟨.fin 7, fun c => c.val + 1⟩ exDraws =
    .light fun c => .fin (c.val + 1) :=
  C137_finite_partial _ _ _ _ rfl (by simp [Invisible]) exDraws_fair

/-- A sheet that is half opaque stops the sample for the draw 1/2 (`u > opacity` is false at equality). -/
example : sight (n := 0) (fun _ _ => 0) [⟨1, ⟨0, true⟩, 1 / 2⟩] exSky exDraws = .stopped := by
  simp [sight, look, fly, top, exDraws]

example : (pixelRadiance ⟨false, 16, .fin (1 / 1000)⟩ (List.replicate 64 (sampleOf (sight (fun _ _ => 0) [exSheet] exSky exDraws))) 0).isNan := by
  have := C137_pixel_lost ⟨false, 16, .fin (1 / 1000)⟩ (fun _ _ => 0) (List.replicate 64 ([exSheet], exSky, exDraws)) (by
    intro x hx
    rw [List.eq_of_mem_replicate hx]
    refine ⟨rfl, by simp [Invisible, exSheet], exDraws_fair, ?_⟩
    simp [crossings, cross, toggle, exSheet, capacity]) 0
  simpa using this

end
end Huira.Volumes
