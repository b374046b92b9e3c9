import Verif.Transport.Spec
import Mathlib.Tactic.Ring
import Mathlib.Algebra.BigOperators.Ring.Finset
import Mathlib.Tactic.FieldSimp
import Mathlib.Tactic.Linarith
import Mathlib.Algebra.Order.BigOperators.Group.Finset
/-! Expected values of the parts of the path-tracing loop. -/
namespace Huira.Transport
set_option linter.unusedSimpArgs false
set_option linter.unusedSectionVars false

noncomputable section
open Classical

variable {Ray Dir Chan L : Type} [Fintype Dir]

theorem mean_bind {α β : Type} (g : β → ℝ) : ∀ (p : Prog Dir α) (f : α → Prog Dir β),
    (p.bind f).mean g = p.mean (fun a => (f a).mean g)
  | .ret a, f => rfl
  | .coin p k, f => by simp only [Prog.bind, Prog.mean, mean_bind g (k true) f, mean_bind g (k false) f]
  | .pick p k, f => by
    simp only [Prog.bind, Prog.mean, mean_bind g (k none) f]
    congr 1
    exact Finset.sum_congr rfl (fun d _ => by rw [mean_bind g (k (some d)) f])

theorem mean_affine {α : Type} (g : α → ℝ) (x y : ℝ) : ∀ p : Prog Dir α,
    p.mean (fun a => x + y * g a) = x + y * p.mean g
  | .ret a => rfl
  | .coin p k => by
    simp only [Prog.mean, mean_affine g x y (k true), mean_affine g x y (k false)]; ring
  | .pick p k => by
    simp only [Prog.mean, mean_affine g x y (k none)]
    have : ∑ d, p d * (k (some d)).mean (fun a => x + y * g a) =
        x * ∑ d, p d + y * ∑ d, p d * (k (some d)).mean g := by
      rw [Finset.mul_sum, Finset.mul_sum, ← Finset.sum_add_distrib]
      exact Finset.sum_congr rfl (fun d _ => by rw [mean_affine g x y (k (some d))]; ring)
    rw [this]; ring

theorem mean_walk {α β : Type} (g : α → ℝ) (op : β → ℝ) (stop : β → Prog Dir α) (thr : Prog Dir α) :
    ∀ vs, (walk op stop thr vs).mean g = along op (fun v => (stop v).mean g) (thr.mean g) vs
  | [] => rfl
  | v :: vs => by
    simp only [walk, along]
    split
    · rename_i h
      have hc : cover (op v) = max 0 (op v) := by unfold cover; rw [min_eq_right h.le]
      simp only [Prog.mean, if_true, Bool.false_eq_true, if_false, mean_walk g op stop thr vs, hc]
    · rename_i h
      have hc : cover (op v) = 1 := by unfold cover; rw [min_eq_left (not_lt.1 h)]; simp
      rw [hc]; simp

theorem along_congr {β : Type} (op : β → ℝ) (f g : β → ℝ) (e e' : ℝ) (he : e = e') : ∀ vs, (∀ v ∈ vs, f v = g v) →
    along op f e vs = along op g e' vs
  | [], _ => he
  | v :: vs, h => by
    simp only [along, h v List.mem_cons_self, along_congr op f g e e' he vs (fun w hw => h w (List.mem_cons_of_mem _ hw))]

/-- Compositing is linear. -/
theorem along_lin {β : Type} (op : β → ℝ) (f g : β → ℝ) (x y e e' : ℝ) : ∀ vs,
    along op (fun v => x * f v + y * g v) (x * e + y * e') vs = x * along op f e vs + y * along op g e' vs
  | [] => rfl
  | v :: vs => by simp only [along, along_lin op f g x y e e' vs]; ring

/-- The part that gets through. -/
def through (os : List ℝ) : ℝ := along id (fun _ => 0) 1 os

theorem along_through {β : Type} (op : β → ℝ) (e : ℝ) : ∀ vs, along op (fun _ => 0) e vs = through (vs.map op) * e
  | [] => by simp [along, through]
  | v :: vs => by
    have h := along_through op e vs
    simp only [along, List.map_cons, through, id] at h ⊢
    rw [h]; ring

theorem along_const {β : Type} (op : β → ℝ) (x : ℝ) : ∀ vs : List β, along op (fun _ => x) x vs = x
  | [] => rfl
  | v :: vs => by simp only [along, along_const op x vs]; ring

theorem cover_bounds (x : ℝ) : 0 ≤ cover x ∧ cover x ≤ 1 := by
  unfold cover
  exact ⟨le_max_left _ _, max_le zero_le_one (min_le_left _ _)⟩

theorem along_mono {β : Type} (op : β → ℝ) (f g : β → ℝ) (e e' : ℝ) (he : e ≤ e') : ∀ vs, (∀ v ∈ vs, f v ≤ g v) →
    along op f e vs ≤ along op g e' vs
  | [], _ => he
  | v :: vs, h => by
    have h1 := along_mono op f g e e' he vs (fun w hw => h w (List.mem_cons_of_mem _ hw))
    have h2 := h v List.mem_cons_self
    have hc := cover_bounds (op v)
    simp only [along]
    have := mul_le_mul_of_nonneg_left h2 hc.1
    have := mul_le_mul_of_nonneg_left h1 (sub_nonneg.2 hc.2)
    linarith

theorem along_nonneg {β : Type} (op : β → ℝ) (f : β → ℝ) (e : ℝ) (he : 0 ≤ e) (vs : List β) (h : ∀ v ∈ vs, 0 ≤ f v) :
    0 ≤ along op f e vs := by
  have := along_mono op (fun _ => 0) f 0 e he vs h
  rwa [along_const] at this

theorem through_bounds (os : List ℝ) : 0 ≤ through os ∧ through os ≤ 1 := by
  constructor
  · exact along_nonneg _ _ _ zero_le_one _ (fun _ _ => le_refl _)
  · have := along_mono (id : ℝ → ℝ) (fun _ => 0) (fun _ => 1) 1 1 (le_refl _) os (fun _ _ => zero_le_one)
    rw [along_const] at this
    exact this

theorem mean_shadow (os : List ℝ) (g : Bool → ℝ) :
    (shadowRay os : Prog Dir Bool).mean g = g false + (g true - g false) * through os := by
  unfold shadowRay
  rw [mean_walk]
  simp only [Prog.mean]
  have := along_lin (id : ℝ → ℝ) (fun _ => 1) (fun _ => 0) (g false) (g true - g false) 1 1 os
  have h2 : (along id (fun _ => 1) 1 os : ℝ) = 1 := along_const _ _ _
  rw [h2] at this
  rw [show (fun _ : ℝ => g false) = (fun _ : ℝ => g false * 1 + (g true - g false) * 0) from by simp,
    show g true = g false * 1 + (g true - g false) * 1 from by ring]
  rw [show g false * 1 + (g true - g false) * 1 - g false = g true - g false from by ring]
  rw [this]; simp [through]

/-! ## Accumulators -/

/-- A weighted sum of the two accumulators of channel `c`. -/
def acc (kd ki : ℝ) (c : Chan) (s : St Ray Dir Chan L) : ℝ := kd * s.direct c + ki * s.indirect c

def kappa (kd ki : ℝ) (b : ℕ) : ℝ := if b = 0 then kd else ki

theorem acc_add (kd ki : ℝ) (c : Chan) (b : ℕ) (s : St Ray Dir Chan L) (x : Chan → ℝ) :
    acc kd ki c (s.add b x) = acc kd ki c s + kappa kd ki b * x c := by
  unfold acc St.add kappa
  split <;> simp only <;> ring

/-- Two states that differ in the accumulators only. -/
def Same (s t : St Ray Dir Chan L) : Prop :=
  t.ray = s.ray ∧ t.throughput = s.throughput ∧ t.roughness = s.roughness ∧ t.prev = s.prev

theorem same_add (b : ℕ) (s t : St Ray Dir Chan L) (x : Chan → ℝ) (h : Same s t) : Same s (t.add b x) := by
  unfold St.add
  split <;> exact h

/-- What a light sample contributes on average from direction `d`. -/
def nee (v : Vertex Dir Chan L) (m : Bsdf Dir Chan) (l : L) (d : Dir) (c : Chan) : ℝ :=
  if v.below d then 0 else v.li l d c * through (v.shadow l d) * power (v.lightPdf l d) (m.evalPdf d)

theorem mean_lightSample (b : ℕ) (v : Vertex Dir Chan L) (m : Bsdf Dir Chan) (l : L) (s : St Ray Dir Chan L)
    (kd ki : ℝ) (c : Chan) (K : ℝ) (g : St Ray Dir Chan L → ℝ) (hg : ∀ t, Same s t → g t = acc kd ki c t + K)
    (hp : ∀ d, v.lightProb l d = v.lightPdf l d) (hl : ∀ d, v.lightPdf l d = 0 → v.li l d = 0) :
    (Prog.pick (v.lightProb l) (lightSample b v m l s)).mean g =
      acc kd ki c s + K + kappa kd ki b * (s.throughput c * ∑ d, m.fcos d c * nee v m l d c) := by
  have h0 : g s = acc kd ki c s + K := hg s ⟨rfl, rfl, rfl, rfl⟩
  have key : ∀ d, v.lightProb l d * (lightSample b v m l s (some d)).mean g =
      v.lightProb l d * (acc kd ki c s + K) + kappa kd ki b * (s.throughput c * (m.fcos d c * nee v m l d c)) := by
    intro d
    simp only [lightSample]
    split
    · rename_i hb
      simp only [Prog.mean, h0, nee, hb, if_true]; ring
    · rename_i hb
      rw [mean_bind, mean_shadow]
      simp only [if_true, Bool.false_eq_true, if_false, Prog.mean, h0]
      rw [hg _ (same_add b s s _ ⟨rfl, rfl, rfl, rfl⟩), acc_add]
      simp only [nee, hb, Bsdf.fcos]
      rw [hp d]
      by_cases hz : v.lightPdf l d = 0
      · simp [hz, hl d hz]
      · simp only [Bool.false_eq_true, if_false]
        field_simp
        ring
  simp only [Prog.mean]
  rw [Finset.sum_congr rfl (fun d _ => key d), Finset.sum_add_distrib, ← Finset.sum_mul, ← Finset.mul_sum,
    ← Finset.mul_sum]
  simp only [lightSample, Prog.mean, h0]
  ring

theorem mean_directLight (b : ℕ) (v : Vertex Dir Chan L) (m : Bsdf Dir Chan) (kd ki : ℝ) (c : Chan) (K : ℝ) :
    ∀ (ls : List L) (s : St Ray Dir Chan L) (g : St Ray Dir Chan L → ℝ),
      (∀ t, Same s t → g t = acc kd ki c t + K) →
      (∀ l ∈ ls, ∀ d, v.lightProb l d = v.lightPdf l d) → (∀ l ∈ ls, ∀ d, v.lightPdf l d = 0 → v.li l d = 0) →
      (directLight b v m ls s).mean g =
        acc kd ki c s + K + kappa kd ki b * (s.throughput c * ∑ d, m.fcos d c * (ls.map fun l => nee v m l d c).sum)
  | [], s, g, hg, _, _ => by
    simp only [directLight, Prog.mean, hg s ⟨rfl, rfl, rfl, rfl⟩, List.map_nil, List.sum_nil]; simp
  | l :: ls, s, g, hg, hp, hl => by
    simp only [directLight]
    rw [mean_bind]
    have hrec : ∀ t, Same s t → (directLight b v m ls t).mean g = acc kd ki c t +
        (K + kappa kd ki b * (s.throughput c * ∑ d, m.fcos d c * (ls.map fun l => nee v m l d c).sum)) := by
      intro t ht
      rw [mean_directLight b v m kd ki c K ls t g
        (fun u hu => hg u ⟨hu.1.trans ht.1, hu.2.1.trans ht.2.1, hu.2.2.1.trans ht.2.2.1, hu.2.2.2.trans ht.2.2.2⟩)
        (fun x hx => hp x (List.mem_cons_of_mem _ hx)) (fun x hx => hl x (List.mem_cons_of_mem _ hx)), ht.2.1]
      ring
    rw [mean_lightSample b v m l s kd ki c _ _ hrec (hp l List.mem_cons_self) (hl l List.mem_cons_self)]
    simp only [List.map_cons, List.sum_cons, mul_add, Finset.sum_add_distrib]
    ring

variable [Fintype Chan] [Nonempty Chan]

theorem maxChan_ge (x : Chan → ℝ) (c : Chan) : x c ≤ maxChan x := Finset.le_sup' x (Finset.mem_univ c)

theorem mean_roulette (b : ℕ) (s : St Ray Dir Chan L) (go : St Ray Dir Chan L → Prog Dir (St Ray Dir Chan L))
    (kd ki : ℝ) (c : Chan) (K : ℝ) (hs : ∀ c, 0 ≤ s.throughput c)
    (hgo : ∀ t : St Ray Dir Chan L, (∀ c, 0 ≤ t.throughput c) → t.ray = s.ray → t.roughness = s.roughness →
      t.prev = s.prev → (go t).mean (acc kd ki c) = acc kd ki c t + t.throughput c * K) :
    (roulette b s go).mean (acc kd ki c) = acc kd ki c s + s.throughput c * K := by
  unfold roulette
  split
  · have hm : 0 ≤ maxChan s.throughput := le_trans (hs c) (maxChan_ge _ c)
    have hp : 0 ≤ min (0.95 : ℝ) (maxChan s.throughput) := le_min (by norm_num) hm
    simp only [Prog.mean, if_true, Bool.false_eq_true, if_false]
    rw [hgo { s with throughput := fun c => s.throughput c / min 0.95 (maxChan s.throughput) }
      (fun c => div_nonneg (hs c) hp) rfl rfl rfl]
    simp only [acc]
    by_cases hz : min (0.95 : ℝ) (maxChan s.throughput) = 0
    · have hmz : maxChan s.throughput = 0 := by
        rcases min_choice (0.95 : ℝ) (maxChan s.throughput) with h | h
        · rw [h] at hz; norm_num at hz
        · rw [← h]; exact hz
      have : s.throughput c = 0 := le_antisymm (by rw [← hmz]; exact maxChan_ge _ c) (hs c)
      rw [hz, this]; simp
    · field_simp
      ring
  · exact hgo s hs rfl rfl rfl

/-! ## The whole loop -/

/-- Weighted radiance of the end of a ray. -/
def endW (W : L → ℝ) (e : End Chan L) (c : Chan) : ℝ :=
  match e with
  | .background r => r c
  | .light l r => r c * W l

/-- Expected contribution per unit of throughput: `n` bounces left at bounce `b`. -/
def expected (S : Scene Ray Dir Chan L) (kd ki : ℝ) : ℕ → ℕ → (L → ℝ) → ℝ → Ray → Chan → ℝ
  | 0, _, _, _, _, _ => 0
  | n + 1, b, W, r, ray, c =>
    along Vertex.opacity
      (fun v => ∑ d, (v.bsdf (regular b r v.roughness)).fcos d c *
        (kappa kd ki b * (S.lights.map fun l => nee v (v.bsdf (regular b r v.roughness)) l d c).sum +
         expected S kd ki n (b + 1) (fun l => power ((v.bsdf (regular b r v.roughness)).pdf d) (v.pdfLi l d))
          (regular b r v.roughness) (S.next v d) c))
      (kappa kd ki b * endW W (S.world ray).2 c) (S.world ray).1

theorem acc_endPath (kd ki : ℝ) (c : Chan) (b : ℕ) (s : St Ray Dir Chan L) (e : End Chan L) :
    acc kd ki c (endPath b s e) = acc kd ki c s + s.throughput c * (kappa kd ki b * endW (weightOf b s) e c) := by
  cases e with
  | background r => simp only [endPath, acc_add, endW]; ring
  | light l r =>
    simp only [endPath, acc_add, endW]; ring

theorem mean_loop (S : Scene Ray Dir Chan L) (hS : Sound S) (kd ki : ℝ) (c : Chan) : ∀ (n b : ℕ)
    (s : St Ray Dir Chan L), (∀ c, 0 ≤ s.throughput c) →
    (loop S n b s).mean (acc kd ki c) =
      acc kd ki c s + s.throughput c * expected S kd ki n b (weightOf b s) s.roughness s.ray c
  | 0, b, s, _ => by simp [loop, Prog.mean, expected]
  | n + 1, b, s, hs => by
    simp only [loop, mean_walk, expected, Prog.mean, acc_endPath]
    have hvertex : ∀ v ∈ (S.world s.ray).1,
        (shade S b s (loop S n (b + 1)) v).mean (acc kd ki c) =
          acc kd ki c s * 1 + s.throughput c * ∑ d, (v.bsdf (regular b s.roughness v.roughness)).fcos d c *
            (kappa kd ki b * (S.lights.map fun l => nee v (v.bsdf (regular b s.roughness v.roughness)) l d c).sum +
             expected S kd ki n (b + 1)
              (fun l => power ((v.bsdf (regular b s.roughness v.roughness)).pdf d) (v.pdfLi l d))
              (regular b s.roughness v.roughness) (S.next v d) c) := by
      intro v hv
      have hli : ∀ l ∈ S.lights, ∀ d, v.lightPdf l d = 0 → v.li l d = 0 := by
        intro l hl d hz
        cases he : (S.world (S.next v d)).2 with
        | background r => exact hS.dark s.ray v hv d r he l hl
        | light l' r =>
          obtain ⟨_, _, _, h4, h5⟩ := hS.lit s.ray v hv d l' r he
          by_cases hll : l = l'
          · subst hll; rw [hz] at h4; exact absurd h4 (lt_irrefl _)
          · exact h5 l hl hll
      simp only [shade]
      generalize hr : regular b s.roughness v.roughness = r
      generalize hm : v.bsdf r = m
      have hprob : ∀ d, m.prob d = m.pdf d := fun d => by rw [← hm]; exact hS.prob s.ray v hv r d
      have hval : ∀ d, m.pdf d * m.value d c = m.fcos d c := fun d => by rw [← hm]; exact hS.value s.ray v hv r d c
      have hnn : ∀ d c, 0 ≤ m.value d c := fun d c => by rw [← hm]; exact hS.value_nonneg s.ray v hv r d c
      have hdel : ∀ d, m.delta d = false := fun d => by rw [← hm]; exact hS.rough s.ray v hv r d
      rw [mean_bind]
      have hcont : ∀ t, Same { s with roughness := r } t →
          (Prog.pick m.prob (scatter S b v m t (loop S n (b + 1)))).mean (acc kd ki c) =
            acc kd ki c t + s.throughput c * ∑ d, m.fcos d c *
              expected S kd ki n (b + 1) (fun l => power (m.pdf d) (v.pdfLi l d)) r (S.next v d) c := by
        intro t ht
        obtain ⟨_, h2, h3, _⟩ := ht
        simp only at h2 h3
        have hroul : ∀ d, (scatter S b v m t (loop S n (b + 1)) (some d)).mean (acc kd ki c) =
            acc kd ki c t + (t.throughput c * m.value d c) *
              expected S kd ki n (b + 1) (fun l => power (m.pdf d) (v.pdfLi l d)) r (S.next v d) c := by
          intro d
          simp only [scatter]
          refine mean_roulette b _ _ kd ki c _ (fun c => mul_nonneg (by rw [h2]; exact hs c) (hnn d c)) ?_
          intro u hu hray hrough hprev
          rw [mean_loop S hS kd ki c n (b + 1) u hu]
          simp only at hray hrough hprev
          have hw : weightOf (b + 1) u = fun l => power (m.pdf d) (v.pdfLi l d) := by
            funext l
            simp [weightOf, hprev, hdel d]
          rw [hw, hray, hrough, h3]
        simp only [Prog.mean]
        have hsum : ∑ d, m.prob d * (scatter S b v m t (loop S n (b + 1)) (some d)).mean (acc kd ki c) =
            (∑ d, m.prob d) * acc kd ki c t + s.throughput c * ∑ d, m.fcos d c *
              expected S kd ki n (b + 1) (fun l => power (m.pdf d) (v.pdfLi l d)) r (S.next v d) c := by
          rw [Finset.mul_sum, Finset.sum_mul, ← Finset.sum_add_distrib]
          refine Finset.sum_congr rfl (fun d _ => ?_)
          rw [hroul d, h2, ← hval d, hprob d]; ring
        rw [hsum]
        simp only [scatter, Prog.mean]
        ring
      rw [mean_directLight b v m kd ki c _ S.lights { s with roughness := r } _ hcont
        (fun l hl d => hS.lightProb s.ray v hv l hl d) hli]
      simp only [acc, mul_add, Finset.sum_add_distrib, Finset.mul_sum]
      ring_nf
    have := along_lin Vertex.opacity (fun _ => 1) (fun v => ∑ d, (v.bsdf (regular b s.roughness v.roughness)).fcos d c *
            (kappa kd ki b * (S.lights.map fun l => nee v (v.bsdf (regular b s.roughness v.roughness)) l d c).sum +
             expected S kd ki n (b + 1)
              (fun l => power ((v.bsdf (regular b s.roughness v.roughness)).pdf d) (v.pdfLi l d))
              (regular b s.roughness v.roughness) (S.next v d) c)) (acc kd ki c s) (s.throughput c) 1
            (kappa kd ki b * endW (weightOf b s) (S.world s.ray).2 c) (S.world s.ray).1
    rw [along_const] at this
    rw [mul_one] at this
    rw [← this]
    exact along_congr _ _ _ _ _ (by ring) _ (fun v hv => by rw [hvertex v hv]; ring)

end

end Huira.Transport
