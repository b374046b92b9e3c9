import Verif.Transport.Lemmas
import Mathlib.Topology.Order.Basic
import Mathlib.Topology.Instances.Real.Lemmas
import Mathlib.Topology.Algebra.Order.LiminfLimsup
/-!
# C116: the expected picture is the transported light; C117: the direct and indirect pictures
-/
namespace Huira.Transport
set_option linter.unusedSimpArgs false
set_option linter.unusedSectionVars false

noncomputable section
open Classical

variable {Ray Dir Chan L : Type} [Fintype Dir] [Fintype Chan] [Nonempty Chan]

theorem sum_single {L : Type} (f : L → ℝ) (l : L) : ∀ ls : List L, ls.Nodup → l ∈ ls → (∀ l' ∈ ls, l' ≠ l → f l' = 0) →
    (ls.map f).sum = f l
  | [], _, h, _ => by simp at h
  | a :: ls, hn, hl, h0 => by
    rw [List.nodup_cons] at hn
    simp only [List.map_cons, List.sum_cons]
    by_cases ha : a = l
    · subst ha
      have : (ls.map f).sum = 0 := by
        refine List.sum_eq_zero (fun x hx => ?_)
        obtain ⟨b, hb, rfl⟩ := List.mem_map.1 hx
        exact h0 b (List.mem_cons_of_mem _ hb) (fun h => hn.1 (h ▸ hb))
      rw [this, add_zero]
    · rw [h0 a List.mem_cons_self ha, zero_add]
      exact sum_single f l ls hn.2 ((List.mem_cons.1 hl).resolve_left (Ne.symm ha))
        (fun l' hl' => h0 l' (List.mem_cons_of_mem _ hl'))

theorem power_sum (a b : ℝ) (h : 0 < a) : power a b + power b a = 1 := by
  unfold power
  have : 0 < a * a + b * b := by nlinarith [mul_self_nonneg b, mul_pos h h]
  rw [add_comm (b * b)]
  field_simp

theorem power_bounds (a b : ℝ) : 0 ≤ power a b ∧ power a b ≤ 1 := by
  unfold power
  constructor
  · exact div_nonneg (mul_self_nonneg a) (add_nonneg (mul_self_nonneg a) (mul_self_nonneg b))
  · refine div_le_one_of_le₀ ?_ (add_nonneg (mul_self_nonneg a) (mul_self_nonneg b))
    linarith [mul_self_nonneg b]

/-- Light sampled at a vertex in one direction, in terms of what is there. -/
def sampled (S : Scene Ray Dir Chan L) (w : Vertex Dir Chan L → ℝ → L → Dir → ℝ) (v : Vertex Dir Chan L) (r : ℝ)
    (d : Dir) (c : Chan) : ℝ :=
  match (S.world (S.next v d)).2 with
  | .background _ => 0
  | .light l _ => w v r l d * lamp S (S.next v d) c

theorem lamp_eq (S : Scene Ray Dir Chan L) (ray : Ray) (c : Chan) :
    lamp S ray c = through ((S.world ray).1.map Vertex.opacity) * (S.world ray).2.lightRadiance c :=
  along_through _ _ _

theorem nee_sum (S : Scene Ray Dir Chan L) (hS : Sound S) (ray : Ray) (v : Vertex Dir Chan L)
    (hv : v ∈ (S.world ray).1) (r : ℝ) (d : Dir) (c : Chan) :
    (v.bsdf r).fcos d c * (S.lights.map fun l => nee v (v.bsdf r) l d c).sum =
      (v.bsdf r).fcos d c * sampled S lightWeight v r d c := by
  by_cases hb : v.below d = true
  · rw [hS.below ray v hv r d c hb]; simp
  congr 1
  unfold sampled
  cases he : (S.world (S.next v d)).2 with
  | background e =>
    refine List.sum_eq_zero (fun x hx => ?_)
    obtain ⟨l, hl, rfl⟩ := List.mem_map.1 hx
    have := hS.dark ray v hv d e he l hl
    simp [nee, this]
  | light l e =>
    obtain ⟨h1, h2, h3, _, h5⟩ := hS.lit ray v hv d l e he
    rw [sum_single _ l _ hS.nodup h1 (fun l' hl' hne => by simp [nee, h5 l' hl' hne])]
    simp only [nee, hb, lightWeight, lamp_eq, he, End.lightRadiance, h2, h3, hS.evalPdf ray v hv]
    simp only [Bool.false_eq_true, if_false]
    ring

theorem along_end {β : Type} (op f : β → ℝ) (e e' : ℝ) (vs : List β) :
    along op f e vs = along op f e' vs + along op (fun _ => 0) (e - e') vs := by
  have h := along_lin op f (fun _ => 0) 1 1 e' (e - e') vs
  simp only [one_mul, add_zero, add_sub_cancel] at h
  exact h

theorem expected_weight (S : Scene Ray Dir Chan L) (n b : ℕ) (W : L → ℝ) (r : ℝ) (ray : Ray) (c : Chan) :
    expected S 1 1 (n + 1) b W r ray c = expected S 1 1 (n + 1) b (fun _ => 1) r ray c +
      through ((S.world ray).1.map Vertex.opacity) * (endW W (S.world ray).2 c - endW (fun _ => 1) (S.world ray).2 c) := by
  have hk : kappa 1 1 b = 1 := by unfold kappa; split <;> rfl
  rw [← along_through]
  simp only [expected, hk, one_mul]
  exact along_end _ _ _ _ _

/-- Light sampling and direction sampling together count a light once. -/
theorem mis (S : Scene Ray Dir Chan L) (hS : Sound S) (n b : ℕ) (ray : Ray) (v : Vertex Dir Chan L)
    (hv : v ∈ (S.world ray).1) (r : ℝ) (d : Dir) (c : Chan) :
    (v.bsdf r).fcos d c * (kappa 1 1 b * (S.lights.map fun l => nee v (v.bsdf r) l d c).sum +
      expected S 1 1 (n + 1) (b + 1) (fun l => power ((v.bsdf r).pdf d) (v.pdfLi l d)) r (S.next v d) c) =
    (v.bsdf r).fcos d c * expected S 1 1 (n + 1) (b + 1) (fun _ => 1) r (S.next v d) c := by
  have hk : kappa 1 1 b = 1 := by unfold kappa; split <;> rfl
  rw [hk, one_mul, mul_add, nee_sum S hS ray v hv r d c, expected_weight, ← mul_add]
  congr 1
  unfold sampled
  cases he : (S.world (S.next v d)).2 with
  | background e => simp [endW]
  | light l e =>
    obtain ⟨h1, _, _, h4, _⟩ := hS.lit ray v hv d l e he
    simp only [endW, lamp_eq, he, End.lightRadiance, lightWeight, hS.pdfLi ray v hv l h1 d]
    have := power_sum (v.lightPdf l d) ((v.bsdf r).pdf d) h4
    have hp : power ((v.bsdf r).pdf d) (v.lightPdf l d) = 1 - power (v.lightPdf l d) ((v.bsdf r).pdf d) := by linarith
    rw [hp]; ring

/-- The roughness rule at bounce `b` in terms of the specification. -/
def Prev (b : ℕ) (r : ℝ) (o : Option ℝ) : Prop := (b = 0 ∧ o = none) ∨ (0 < b ∧ o = some r)

theorem regular_eq (b : ℕ) (r own : ℝ) (o : Option ℝ) (h : Prev b r o) : regular b r own = atLeast o own := by
  rcases h with ⟨rfl, rfl⟩ | ⟨hb, rfl⟩
  · simp [regular, atLeast]
  · simp [regular, atLeast, hb]

theorem endW_one (e : End Chan L) (c : Chan) : endW (fun _ => 1) e c = e.radiance c := by
  cases e <;> simp [endW, End.radiance]

theorem along_add {β : Type} (op : β → ℝ) (f g : β → ℝ) (e e' : ℝ) (vs : List β) :
    along op (fun v => f v + g v) (e + e') vs = along op f e vs + along op g e' vs := by
  have := along_lin op f g 1 1 e e' vs
  simpa using this

theorem lampTail_one (S : Scene Ray Dir Chan L) (w : Vertex Dir Chan L → ℝ → L → Dir → ℝ) (o : Option ℝ) (ray : Ray)
    (c : Chan) : lampTail S w 1 o ray c = along Vertex.opacity (fun v => ∑ d,
      (v.bsdf (atLeast o v.roughness)).fcos d c * sampled S w v (atLeast o v.roughness) d c) 0 (S.world ray).1 := rfl

theorem expected_eq (S : Scene Ray Dir Chan L) (hS : Sound S) (c : Chan) : ∀ (n b : ℕ) (o : Option ℝ) (r : ℝ) (ray : Ray),
    Prev b r o → expected S 1 1 n b (fun _ => 1) r ray c = radiance S n o ray c + lampTail S lightWeight n o ray c
  | 0, b, o, r, ray, _ => by simp [expected, radiance, lampTail]
  | 1, b, o, r, ray, h => by
    have hk : kappa 1 1 b = 1 := by unfold kappa; split <;> rfl
    rw [lampTail_one]
    simp only [expected, radiance]
    rw [← along_add]
    refine along_congr _ _ _ _ _ (by rw [hk, endW_one]; ring) _ (fun v hv => ?_)
    rw [← Finset.sum_add_distrib]
    refine Finset.sum_congr rfl (fun d _ => ?_)
    rw [regular_eq b r _ o h, hk, one_mul, add_zero, nee_sum S hS ray v hv]
    ring
  | n + 2, b, o, r, ray, h => by
    have hk : kappa 1 1 b = 1 := by unfold kappa; split <;> rfl
    have e1 : expected S 1 1 (n + 2) b (fun _ => 1) r ray c = along Vertex.opacity
      (fun v => ∑ d, (v.bsdf (regular b r v.roughness)).fcos d c *
        (kappa 1 1 b * (S.lights.map fun l => nee v (v.bsdf (regular b r v.roughness)) l d c).sum +
         expected S 1 1 (n + 1) (b + 1) (fun l => power ((v.bsdf (regular b r v.roughness)).pdf d) (v.pdfLi l d))
          (regular b r v.roughness) (S.next v d) c))
      (kappa 1 1 b * endW (fun _ => 1) (S.world ray).2 c) (S.world ray).1 := rfl
    have e2 : radiance S (n + 2) o ray c = along Vertex.opacity
      (fun v => ∑ d, (v.bsdf (atLeast o v.roughness)).fcos d c *
        radiance S (n + 1) (some (atLeast o v.roughness)) (S.next v d) c)
      ((S.world ray).2.radiance c) (S.world ray).1 := rfl
    have e3 : lampTail S lightWeight (n + 2) o ray c = along Vertex.opacity
      (fun v => ∑ d, (v.bsdf (atLeast o v.roughness)).fcos d c *
        lampTail S lightWeight (n + 1) (some (atLeast o v.roughness)) (S.next v d) c) 0 (S.world ray).1 := rfl
    rw [e1, e2, e3, ← along_add]
    refine along_congr _ _ _ _ _ (by rw [hk, endW_one]; ring) _ (fun v hv => ?_)
    rw [← Finset.sum_add_distrib]
    refine Finset.sum_congr rfl (fun d _ => ?_)
    rw [mis S hS n b ray v hv, regular_eq b r _ o h,
      expected_eq S hS c (n + 1) (b + 1) (some (atLeast o v.roughness)) (atLeast o v.roughness) (S.next v d)
        (Or.inr ⟨Nat.succ_pos b, rfl⟩)]
    ring

/-! ## C116 -/

/-- The radiance of a sample. -/
def total (c : Chan) (s : St Ray Dir Chan L) : ℝ := s.direct c + s.indirect c

theorem total_eq (c : Chan) : (total c : St Ray Dir Chan L → ℝ) = acc 1 1 c := by
  funext s; simp [total, acc]

/-- **C116 (expected value).** For every sound scene, camera ray, channel and number `n` of bounces, the expected radiance
of a sample is the light of all paths of at most `n` segments, plus, for paths of `n + 1` segments that end on a lamp, the
share the power heuristic gives to light sampling. Russian roulette, layered transparency and the sampling densities
leave no other trace. -/
theorem C116_mean_partial (S : Scene Ray Dir Chan L) (hS : Sound S) (n : ℕ) (camera : Ray) (c : Chan) :
    (sample S n camera).mean (total c) = radiance S n none camera c + lampTail S lightWeight n none camera c := by
  rw [total_eq]
  unfold sample
  rw [mean_loop S hS 1 1 c n 0 _ (fun _ => zero_le_one)]
  have hw : weightOf 0 (⟨camera, fun _ => 1, fun _ => 0, fun _ => 0, 0, none⟩ : St Ray Dir Chan L) = fun _ => 1 := by
    funext l; simp [weightOf]
  rw [hw]
  simp only [acc]
  rw [expected_eq S hS c n 0 none 0 camera (Or.inl ⟨rfl, rfl⟩)]
  ring

/-- No surface or light is negative. -/
structure Physical (S : Scene Ray Dir Chan L) : Prop where
  fcos : ∀ ray, ∀ v ∈ (S.world ray).1, ∀ r d c, 0 ≤ (v.bsdf r).fcos d c
  ends : ∀ ray c, 0 ≤ (S.world ray).2.radiance c

theorem radiance_nonneg (S : Scene Ray Dir Chan L) (hp : Physical S) (c : Chan) : ∀ (n : ℕ) (o : Option ℝ) (ray : Ray),
    0 ≤ radiance S n o ray c
  | 0, _, _ => le_refl _
  | n + 1, o, ray => by
    simp only [radiance]
    exact along_nonneg _ _ _ (hp.ends ray c) _ (fun v hv => Finset.sum_nonneg (fun d _ =>
      mul_nonneg (hp.fcos ray v hv _ d c) (radiance_nonneg S hp c n _ _)))

theorem lamp_le (S : Scene Ray Dir Chan L) (hp : Physical S) (ray : Ray) (c : Chan) (o : Option ℝ) :
    0 ≤ lamp S ray c ∧ lamp S ray c ≤ radiance S 1 o ray c := by
  have he : 0 ≤ (S.world ray).2.lightRadiance c ∧ (S.world ray).2.lightRadiance c ≤ (S.world ray).2.radiance c := by
    have := hp.ends ray c
    cases h : (S.world ray).2 with
    | background r => rw [h] at this; exact ⟨le_refl _, this⟩
    | light l r => rw [h] at this; exact ⟨this, le_refl _⟩
  constructor
  · exact along_nonneg _ _ _ he.1 _ (fun _ _ => le_refl _)
  · unfold lamp
    simp only [radiance, mul_zero, Finset.sum_const_zero]
    exact along_mono _ _ _ _ _ he.2 _ (fun _ _ => le_refl _)

theorem sampled_bounds (S : Scene Ray Dir Chan L) (hp : Physical S) (v : Vertex Dir Chan L) (r : ℝ) (d : Dir) (c : Chan)
    (o : Option ℝ) : 0 ≤ sampled S lightWeight v r d c ∧ sampled S lightWeight v r d c ≤ radiance S 1 o (S.next v d) c := by
  unfold sampled
  have hl := lamp_le S hp (S.next v d) c o
  cases (S.world (S.next v d)).2 with
  | background e => exact ⟨le_refl _, le_trans hl.1 hl.2⟩
  | light l e =>
    have hw := power_bounds (v.lightPdf l d) ((v.bsdf r).pdf d)
    simp only [lightWeight]
    refine ⟨mul_nonneg hw.1 hl.1, le_trans ?_ hl.2⟩
    nlinarith [hl.1, hw.2]

theorem tail_nonneg (S : Scene Ray Dir Chan L) (hp : Physical S) (c : Chan) : ∀ (n : ℕ) (o : Option ℝ) (ray : Ray),
    0 ≤ lampTail S lightWeight n o ray c
  | 0, _, _ => le_refl _
  | 1, o, ray => by
    rw [lampTail_one]
    exact along_nonneg _ _ _ (le_refl _) _ (fun v hv => Finset.sum_nonneg (fun d _ =>
      mul_nonneg (hp.fcos ray v hv _ d c) (sampled_bounds S hp v _ d c none).1))
  | n + 2, o, ray => by
    simp only [lampTail]
    exact along_nonneg _ _ _ (le_refl _) _ (fun v hv => Finset.sum_nonneg (fun d _ =>
      mul_nonneg (hp.fcos ray v hv _ d c) (tail_nonneg S hp c (n + 1) _ _)))

theorem tail_le (S : Scene Ray Dir Chan L) (hp : Physical S) (c : Chan) : ∀ (n : ℕ) (o : Option ℝ) (ray : Ray),
    radiance S n o ray c + lampTail S lightWeight n o ray c ≤ radiance S (n + 1) o ray c
  | 0, o, ray => by
    have := radiance_nonneg S hp c 1 o ray
    simpa [radiance, lampTail] using this
  | 1, o, ray => by
    rw [lampTail_one]
    have e1 : radiance S 1 o ray c = along Vertex.opacity
      (fun v => ∑ d, (v.bsdf (atLeast o v.roughness)).fcos d c *
        radiance S 0 (some (atLeast o v.roughness)) (S.next v d) c)
      ((S.world ray).2.radiance c) (S.world ray).1 := rfl
    have e2 : radiance S (1 + 1) o ray c = along Vertex.opacity
      (fun v => ∑ d, (v.bsdf (atLeast o v.roughness)).fcos d c *
        radiance S 1 (some (atLeast o v.roughness)) (S.next v d) c)
      ((S.world ray).2.radiance c) (S.world ray).1 := rfl
    rw [e1, e2, ← along_add]
    refine along_mono _ _ _ _ _ (by linarith) _ (fun v hv => ?_)
    rw [← Finset.sum_add_distrib]
    refine Finset.sum_le_sum (fun d _ => ?_)
    rw [← mul_add]
    refine mul_le_mul_of_nonneg_left ?_ (hp.fcos ray v hv _ d c)
    have := (sampled_bounds S hp v (atLeast o v.roughness) d c (some (atLeast o v.roughness))).2
    have h0 : radiance S 0 (some (atLeast o v.roughness)) (S.next v d) c = 0 := rfl
    rw [h0, zero_add]; exact this
  | n + 2, o, ray => by
    have e1 : ∀ k, radiance S (k + 1) o ray c = along Vertex.opacity
      (fun v => ∑ d, (v.bsdf (atLeast o v.roughness)).fcos d c *
        radiance S k (some (atLeast o v.roughness)) (S.next v d) c)
      ((S.world ray).2.radiance c) (S.world ray).1 := fun k => rfl
    have e3 : lampTail S lightWeight (n + 2) o ray c = along Vertex.opacity
      (fun v => ∑ d, (v.bsdf (atLeast o v.roughness)).fcos d c *
        lampTail S lightWeight (n + 1) (some (atLeast o v.roughness)) (S.next v d) c) 0 (S.world ray).1 := rfl
    rw [e1 (n + 1), e1 (n + 2), e3, ← along_add]
    refine along_mono _ _ _ _ _ (by linarith) _ (fun v hv => ?_)
    rw [← Finset.sum_add_distrib]
    refine Finset.sum_le_sum (fun d _ => ?_)
    rw [← mul_add]
    exact mul_le_mul_of_nonneg_left (tail_le S hp c (n + 1) _ _) (hp.fcos ray v hv _ d c)

/-- C116, bounds: the expected radiance lies between the light of paths of at most `n` and of at most `n + 1`
segments. -/
theorem C116_bounds_partial (S : Scene Ray Dir Chan L) (hS : Sound S) (hp : Physical S) (n : ℕ) (camera : Ray)
    (c : Chan) :
    radiance S n none camera c ≤ (sample S n camera).mean (total c) ∧
    (sample S n camera).mean (total c) ≤ radiance S (n + 1) none camera c := by
  rw [C116_mean_partial S hS]
  exact ⟨by linarith [tail_nonneg S hp c n none camera], tail_le S hp c n none camera⟩

/-- **C116 (limit).** When the light of longer and longer paths converges, the expected picture converges to the same
limit as `max_bounces` grows: no bias remains. -/
theorem C116_limit_partial (S : Scene Ray Dir Chan L) (hS : Sound S) (hp : Physical S) (camera : Ray) (c : Chan) (x : ℝ)
    (hx : Filter.Tendsto (fun n => radiance S n none camera c) Filter.atTop (nhds x)) :
    Filter.Tendsto (fun n => (sample S n camera).mean (total c)) Filter.atTop (nhds x) :=
  tendsto_of_tendsto_of_tendsto_of_le_of_le hx (hx.comp (Filter.tendsto_add_atTop_nat 1))
    (fun n => (C116_bounds_partial S hS hp n camera c).1) (fun n => (C116_bounds_partial S hS hp n camera c).2)

/-- Full statement: with `n` bounces the expected picture is the light of paths up to a definite length, `n` or `n + 1`
segments. -/
def C116_full : Prop :=
  ∀ (Ray Dir Chan L : Type) [Fintype Dir] [Fintype Chan] [Nonempty Chan] (S : Scene Ray Dir Chan L) (n : ℕ) (camera : Ray)
    (c : Chan), Sound S → Physical S → (sample S n camera).mean (total c) = radiance S n none camera c ∨
      (sample S n camera).mean (total c) = radiance S (n + 1) none camera c

/-- A white surface lit by one lamp in the only direction there is, with equal densities. -/
def oneLamp : Scene Bool Unit Unit Unit where
  world := fun r => if r then ([⟨1, 1, fun _ => ⟨fun _ _ => 1, fun _ => 1, fun _ => 1, fun _ => 1, fun _ _ => 1, fun _ => 1,
    fun _ => false⟩, fun _ _ => 1, fun _ _ => 1, fun _ _ _ => 1, fun _ _ => [], fun _ => false, fun _ _ => 1⟩],
      .background 0) else ([], .light () 1)
  next := fun _ _ => false
  lights := [()]

theorem oneLamp_sound : Sound oneLamp ∧ Physical oneLamp := by
  refine ⟨⟨by simp [oneLamp], ?_, ?_, ?_, ?_, ?_, ?_, ?_, ?_, ?_, ?_⟩, ⟨?_, ?_⟩⟩
  all_goals
    intro ray
    cases ray <;> simp [oneLamp, Bsdf.fcos, End.radiance]
  rfl

/-- The only surface of the example. -/
theorem oneLamp_values : radiance oneLamp 1 none true () = 0 ∧ radiance oneLamp 2 none true () = 1 ∧
    lampTail oneLamp lightWeight 1 none true () = 1 / 2 ∧ lampTail oneLamp (fun _ _ _ _ => 1) 1 none true () = 1 := by
  refine ⟨?_, ?_, ?_, ?_⟩ <;>
    norm_num [radiance, lampTail, oneLamp, along, cover, End.radiance, Bsdf.fcos, lamp, lightWeight, power,
      End.lightRadiance]

/-- **C116 is violated**: the light sample at the last vertex is weighted as if the other technique were to follow, but
the loop ends there. In the example one bounce gives half of the direct light, and no path length explains it. -/
theorem C116_violated : ¬ C116_full := by
  intro h
  have h1 := h Bool Unit Unit Unit oneLamp 1 true () oneLamp_sound.1 oneLamp_sound.2
  rw [C116_mean_partial oneLamp oneLamp_sound.1] at h1
  obtain ⟨a, b, d, _⟩ := oneLamp_values
  rw [a, b, d] at h1
  norm_num at h1

/-! ## C117 -/

theorem expected_zero (S : Scene Ray Dir Chan L) (c : Chan) : ∀ (n b : ℕ) (W : L → ℝ) (r : ℝ) (ray : Ray), 0 < b →
    expected S 1 0 n b W r ray c = 0
  | 0, _, _, _, _, _ => rfl
  | n + 1, b, W, r, ray, hb => by
    have hk : kappa 1 0 b = 0 := by simp [kappa, Nat.pos_iff_ne_zero.1 hb]
    simp only [expected, hk, zero_mul, zero_add]
    simp only [expected_zero S c n (b + 1) _ _ _ (Nat.succ_pos b), mul_zero, Finset.sum_const_zero]
    exact along_const _ _ _

/-- What the camera sees directly: lights and background behind the layers. -/
def seen (S : Scene Ray Dir Chan L) (ray : Ray) (c : Chan) : ℝ :=
  along Vertex.opacity (fun _ => 0) ((S.world ray).2.radiance c) (S.world ray).1

/-- **C117 (direct picture).** With at least one bounce, the expected direct radiance is what the camera sees directly plus
the light-sampling share of the lamp light reflected once; the expected indirect radiance is the rest. -/
theorem C117_direct_partial (S : Scene Ray Dir Chan L) (hS : Sound S) (n : ℕ) (camera : Ray) (c : Chan) :
    (sample S (n + 1) camera).mean (fun s => s.direct c) = seen S camera c + lampTail S lightWeight 1 none camera c ∧
    (sample S (n + 1) camera).mean (fun s => s.direct c) + (sample S (n + 1) camera).mean (fun s => s.indirect c) =
      (sample S (n + 1) camera).mean (total c) := by
  have hd : (fun s : St Ray Dir Chan L => s.direct c) = acc 1 0 c := by funext s; simp [acc]
  have hi : (fun s : St Ray Dir Chan L => s.indirect c) = acc 0 1 c := by funext s; simp [acc]
  constructor
  · rw [hd]
    unfold sample
    rw [mean_loop S hS 1 0 c (n + 1) 0 _ (fun _ => zero_le_one)]
    have hw : weightOf 0 (⟨camera, fun _ => 1, fun _ => 0, fun _ => 0, 0, none⟩ : St Ray Dir Chan L) = fun _ => 1 := by
      funext l; simp [weightOf]
    rw [hw, lampTail_one]
    simp only [acc, expected, expected_zero S c n (0 + 1) _ _ _ (Nat.succ_pos 0), add_zero, seen]
    rw [← along_add]
    simp only [mul_zero, zero_add, one_mul]
    refine along_congr _ _ _ _ _ (by rw [endW_one]; simp [kappa]) _ (fun v hv => ?_)
    refine Finset.sum_congr rfl (fun d _ => ?_)
    have hr : regular 0 (0 : ℝ) v.roughness = atLeast none v.roughness := by simp [regular, atLeast]
    rw [hr, show kappa 1 0 0 = (1 : ℝ) from rfl, one_mul, nee_sum S hS camera v hv]
  · have hsum : ∀ p : Prog Dir (St Ray Dir Chan L),
        p.mean (fun s => s.direct c) + p.mean (fun s => s.indirect c) = p.mean (total c) := by
      intro p
      induction p with
      | ret a => rfl
      | coin q k ih => simp only [Prog.mean, ← ih true, ← ih false]; ring
      | pick q k ih =>
        simp only [Prog.mean, ← ih, mul_add, Finset.sum_add_distrib]; ring
    exact hsum _

/-- Full statement: the direct picture holds all the light that reaches the camera from a source directly or after one
reflection of lamp light. -/
def C117_full : Prop :=
  ∀ (Ray Dir Chan L : Type) [Fintype Dir] [Fintype Chan] [Nonempty Chan] (S : Scene Ray Dir Chan L) (n : ℕ) (camera : Ray)
    (c : Chan), Sound S → Physical S → (sample S (n + 1) camera).mean (fun s => s.direct c) =
      seen S camera c + lampTail S (fun _ _ _ _ => 1) 1 none camera c

/-- **C117 is violated** for every number of bounces: light that direction sampling finds after the first reflection is
booked as indirect although its counterpart is booked as direct. -/
theorem C117_violated (n : ℕ) :
    (sample oneLamp (n + 1) true).mean (fun s => s.direct ()) = 1 / 2 ∧
    seen oneLamp true () + lampTail oneLamp (fun _ _ _ _ => 1) 1 none true () = 1 ∧ ¬ C117_full := by
  have hs : seen oneLamp true () = 0 := by norm_num [seen, oneLamp, along, cover, End.radiance]
  obtain ⟨_, _, d, e⟩ := oneLamp_values
  have h0 : ∀ n, (sample oneLamp (n + 1) true).mean (fun s => s.direct ()) = 1 / 2 := by
    intro n
    rw [(C117_direct_partial oneLamp oneLamp_sound.1 n true ()).1, hs, d, zero_add]
  refine ⟨h0 n, by rw [hs, e, zero_add], fun h => ?_⟩
  have h1 := h Bool Unit Unit Unit oneLamp 0 true () oneLamp_sound.1 oneLamp_sound.2
  rw [h0 0, hs, e] at h1
  norm_num at h1

/-- A grey half-transparent panel before a background; of its two directions one leads to a lamp, the other through a
second panel to another lamp. -/
def panel (o : ℝ) (lamps : Bool) : Vertex Bool Unit Bool where
  opacity := o
  roughness := 1 / 2
  bsdf := fun _ => ⟨fun _ _ => 1 / 2, fun _ => 1 / 2, fun _ => 1 / 2, fun _ => 1 / 2, fun _ _ => 1 / 2, fun _ => 1 / 2,
    fun _ => false⟩
  lightProb := fun l d => if lamps ∧ l = d then 1 else 0
  lightPdf := fun l d => if lamps ∧ l = d then 1 else 0
  li := fun l d _ => if lamps ∧ l = d then 3 else 0
  shadow := fun _ d => if d then [] else [1 / 2]
  below := fun _ => false
  pdfLi := fun l d => if lamps ∧ l = d then 1 else 0

def twoLamps : Scene (Option (Bool × Bool)) Bool Unit Bool where
  world := fun r => match r with
    | none => ([panel (1 / 2) true], .background 2)
    | some (true, true) => ([], .light true (fun _ => 3))
    | some (true, false) => ([panel (1 / 2) false], .light false (fun _ => 3))
    | some (false, _) => ([], .background 1)
  next := fun v d => if v.lightPdf d d = 1 then some (true, d) else some (false, d)
  lights := [true, false]

theorem twoLamps_sound : Sound twoLamps ∧ Physical twoLamps := by
  refine ⟨⟨by simp [twoLamps], ?_, ?_, ?_, ?_, ?_, ?_, ?_, ?_, ?_, ?_⟩, ⟨?_, ?_⟩⟩
  all_goals
    intro ray
    rcases ray with _ | ⟨a, b⟩
    · norm_num [twoLamps, panel, Bsdf.fcos, End.radiance]
      try first | (exact ⟨fun r h => (by cases h), fun r h => (by cases h)⟩) | rfl
    · cases a <;> cases b <;> norm_num [twoLamps, panel, Bsdf.fcos, End.radiance] <;>
        first | (exact ⟨fun r h => (by cases h), fun r h => (by cases h)⟩) | rfl

/-- The light of this scene: two bounces lose part of the second lamp's light on the second panel. -/
example : radiance twoLamps 2 none none () = 25 / 16 ∧ radiance twoLamps 3 none none () = 51 / 32 := by
  constructor <;>
    norm_num [radiance, twoLamps, along, cover, panel, Bsdf.fcos, End.radiance]

/-- Non-vacuity: the example scene is sound and physical; two bounces and more give exactly the full light, 1. -/
example : (sample oneLamp 2 true).mean (total ()) = 1 := by
  rw [C116_mean_partial oneLamp oneLamp_sound.1]
  rw [oneLamp_values.2.1]
  norm_num [lampTail, oneLamp, along, cover]

end

end Huira.Transport
