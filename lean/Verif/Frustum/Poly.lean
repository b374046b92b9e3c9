import Mathlib.Data.Real.Basic
import Mathlib.Analysis.Convex.Combination
import Mathlib.Analysis.Convex.Join
import Mathlib.Tactic.Linarith
import Mathlib.Tactic.Ring
import Mathlib.Tactic.FieldSimp
import Mathlib.Tactic.LinearCombination
/-!
# Clipping convex polygons in the plane (mathematics used by the frustum proofs)

Points are pairs of reals (two of the barycentric coordinates of the triangle being clipped). Nothing here models
code; `Verif/Frustum/Model.lean` does.
-/
namespace Huira.Frustum
noncomputable section
open Set

abbrev Pt := ℝ × ℝ

/-- Twice the signed area of the triangle `a b c`. -/
def orient (a b c : Pt) : ℝ := (b.1 - a.1) * (c.2 - a.2) - (b.2 - a.2) * (c.1 - a.1)

/-- All ordered triples of the list turn left (weakly). -/
def Conv : List Pt → Prop
  | [] => True
  | a :: l => l.Pairwise (fun b c => 0 ≤ orient a b c) ∧ Conv l

/-- An affine function on the plane. -/
structure Aff where
  k : ℝ
  u : ℝ
  v : ℝ

def Aff.ev (f : Aff) (p : Pt) : ℝ := f.k + f.u * p.1 + f.v * p.2

def lerpP (a b : Pt) (t : ℝ) : Pt := (a.1 + t * (b.1 - a.1), a.2 + t * (b.2 - a.2))

/-- Crossing parameter. -/
def crossT (f : Aff) (a b : Pt) : ℝ := f.ev a / (f.ev a - f.ev b)

/-- Points emitted for one edge. -/
def stepP (f : Aff) (a b : Pt) : List Pt :=
  if 0 ≤ f.ev a ∧ 0 ≤ f.ev b then [b]
  else if 0 ≤ f.ev a ∧ ¬ 0 ≤ f.ev b then [lerpP a b (crossT f a b)]
  else if ¬ 0 ≤ f.ev a ∧ 0 ≤ f.ev b then [lerpP a b (crossT f a b), b]
  else []

/-- Points emitted along an open chain. -/
def chain (f : Aff) : List Pt → List Pt
  | a :: b :: l => stepP f a b ++ chain f (b :: l)
  | _ => []

/-- One clipping pass over a closed polygon. -/
def clipP (f : Aff) (l : List Pt) : List Pt :=
  match l with
  | [] => []
  | p :: l => chain f (p :: l ++ [p])

theorem lerpP_mem_segment {a b : Pt} {t : ℝ} (h0 : 0 ≤ t) (h1 : t ≤ 1) : lerpP a b t ∈ segment ℝ a b := by
  refine ⟨1 - t, t, by linarith, h0, by ring, ?_⟩
  ext <;> simp [lerpP] <;> ring

theorem crossT_mem {f : Aff} {a b : Pt} (h : (0 ≤ f.ev a ∧ f.ev b < 0) ∨ (f.ev a < 0 ∧ 0 ≤ f.ev b)) :
    0 ≤ crossT f a b ∧ crossT f a b ≤ 1 := by
  unfold crossT
  rcases h with ⟨h1, h2⟩ | ⟨h1, h2⟩
  · have : 0 < f.ev a - f.ev b := by linarith
    exact ⟨div_nonneg h1 this.le, by rw [div_le_one this]; linarith⟩
  · have : f.ev a - f.ev b < 0 := by linarith
    exact ⟨div_nonneg_of_nonpos h1.le this.le, by rw [div_le_one_of_neg this]; linarith⟩

theorem ev_lerp (f : Aff) (a b : Pt) (t : ℝ) : f.ev (lerpP a b t) = f.ev a + t * (f.ev b - f.ev a) := by
  simp only [Aff.ev, lerpP]; ring

theorem ev_cross {f : Aff} {a b : Pt} (h : f.ev a - f.ev b ≠ 0) : f.ev (lerpP a b (crossT f a b)) = 0 := by
  rw [ev_lerp, crossT]; field_simp; ring

/-- What an emitted point of the edge `a b` is: on the segment, and not outside. -/
theorem step_spec {f : Aff} {a b x : Pt} (hx : x ∈ stepP f a b) :
    ∃ t, 0 ≤ t ∧ t ≤ 1 ∧ x = lerpP a b t ∧ 0 ≤ f.ev x := by
  unfold stepP at hx
  have hb : b = lerpP a b 1 := by ext <;> simp [lerpP]
  split_ifs at hx with h1 h2 h3
  · rw [List.mem_singleton] at hx; subst hx
    exact ⟨1, by norm_num, le_refl _, hb, h1.2⟩
  · rw [List.mem_singleton] at hx
    have hc : (0 ≤ f.ev a ∧ f.ev b < 0) ∨ (f.ev a < 0 ∧ 0 ≤ f.ev b) := Or.inl ⟨h2.1, not_le.mp h2.2⟩
    refine ⟨_, (crossT_mem hc).1, (crossT_mem hc).2, hx, ?_⟩
    rw [hx, ev_cross (by have := h2.2; push Not at this; linarith [h2.1])]
  · have hc : (0 ≤ f.ev a ∧ f.ev b < 0) ∨ (f.ev a < 0 ∧ 0 ≤ f.ev b) := Or.inr ⟨not_le.mp h3.1, h3.2⟩
    simp only [List.mem_cons, List.not_mem_nil, or_false] at hx
    rcases hx with hx | hx
    · refine ⟨_, (crossT_mem hc).1, (crossT_mem hc).2, hx, ?_⟩
      rw [hx, ev_cross (by have := h3.1; push Not at this; linarith [h3.2])]
    · subst hx; exact ⟨1, by norm_num, le_refl _, hb, h3.2⟩
  · simp at hx

theorem chain_mem_convex {f : Aff} {C : Set Pt} (hC : Convex ℝ C) :
    ∀ {L : List Pt}, (∀ c ∈ L, c ∈ C) → ∀ x ∈ chain f L, x ∈ C
  | [], _, x, hx => by simp [chain] at hx
  | [_], _, x, hx => by simp [chain] at hx
  | a :: b :: l, h, x, hx => by
    rw [chain, List.mem_append] at hx
    rcases hx with hx | hx
    · obtain ⟨t, h0, h1, rfl, -⟩ := step_spec hx
      exact hC.segment_subset (h a (by simp)) (h b (by simp)) (lerpP_mem_segment h0 h1)
    · exact chain_mem_convex hC (fun c hc => h c (List.mem_cons_of_mem _ hc)) x hx

theorem chain_inside {f : Aff} : ∀ {L : List Pt}, ∀ x ∈ chain f L, 0 ≤ f.ev x
  | [], x, hx => by simp [chain] at hx
  | [_], x, hx => by simp [chain] at hx
  | a :: b :: l, x, hx => by
    rw [chain, List.mem_append] at hx
    rcases hx with hx | hx
    · obtain ⟨_, _, _, _, h⟩ := step_spec hx; exact h
    · exact chain_inside x hx

theorem convex_half (x y : Pt) : Convex ℝ {c : Pt | 0 ≤ orient x y c} := by
  intro a ha b hb s t hs ht hst
  simp only [mem_setOf_eq, orient] at *
  simp only [Prod.fst_add, Prod.snd_add, Prod.smul_fst, Prod.smul_snd, smul_eq_mul]
  have : s = 1 - t := by linarith
  subst this
  nlinarith [mul_nonneg hs ha, mul_nonneg ht hb]

theorem convex_half' (x y : Pt) : Convex ℝ {c : Pt | 0 ≤ orient x c y} := by
  intro a ha b hb s t hs ht hst
  simp only [mem_setOf_eq, orient] at *
  simp only [Prod.fst_add, Prod.snd_add, Prod.smul_fst, Prod.smul_snd, smul_eq_mul]
  have : s = 1 - t := by linarith
  subst this
  nlinarith [mul_nonneg hs ha, mul_nonneg ht hb]

theorem orient_lerp1 (a b c d : Pt) (t : ℝ) :
    orient (lerpP a b t) c d = (1 - t) * orient a c d + t * orient b c d := by
  simp only [orient, lerpP]; ring
theorem orient_lerp2 (a b c d : Pt) (t : ℝ) :
    orient c (lerpP a b t) d = (1 - t) * orient c a d + t * orient c b d := by
  simp only [orient, lerpP]; ring
theorem orient_lerp23 (x a b : Pt) (s : ℝ) : orient x (lerpP a b s) b = (1 - s) * orient x a b := by
  simp only [orient, lerpP]; ring
theorem orient_lerp12 (x a b : Pt) (s : ℝ) : orient (lerpP a b s) b x = (1 - s) * orient a b x := by
  simp only [orient, lerpP]; ring
@[simp] theorem orient_aab (a b : Pt) : orient a a b = 0 := by simp [orient]
@[simp] theorem orient_aba (a b : Pt) : orient a b a = 0 := by simp [orient]
@[simp] theorem orient_abb (a b : Pt) : orient a b b = 0 := by simp only [orient]; ring
theorem orient_cyc (a b c : Pt) : orient a b c = orient b c a := by simp only [orient]; ring
theorem orient_swap (a b c : Pt) : orient a b c = -orient a c b := by simp only [orient]; ring

/-- An edge emits nothing, one point of the edge, or a point of the edge followed by its end. -/
theorem step_shape (f : Aff) (a b : Pt) :
    stepP f a b = [] ∨ (∃ t, 0 ≤ t ∧ t ≤ 1 ∧ stepP f a b = [lerpP a b t]) ∨
      (∃ t, 0 ≤ t ∧ t ≤ 1 ∧ stepP f a b = [lerpP a b t, b]) := by
  have hb : lerpP a b 1 = b := by ext <;> simp [lerpP]
  unfold stepP
  split_ifs with h1 h2 h3
  · right; left; exact ⟨1, by norm_num, le_refl _, by rw [hb]⟩
  · have hc : (0 ≤ f.ev a ∧ f.ev b < 0) ∨ (f.ev a < 0 ∧ 0 ≤ f.ev b) := Or.inl ⟨h2.1, not_le.mp h2.2⟩
    right; left; exact ⟨_, (crossT_mem hc).1, (crossT_mem hc).2, rfl⟩
  · have hc : (0 ≤ f.ev a ∧ f.ev b < 0) ∨ (f.ev a < 0 ∧ 0 ≤ f.ev b) := Or.inr ⟨not_le.mp h3.1, h3.2⟩
    right; right; exact ⟨_, (crossT_mem hc).1, (crossT_mem hc).2, rfl⟩
  · left; rfl

theorem chain_pairwise {f : Aff} (x : Pt) :
    ∀ {L : List Pt}, L.Pairwise (fun b c => 0 ≤ orient x b c) →
      (chain f L).Pairwise (fun b c => 0 ≤ orient x b c)
  | [], _ => by simp [chain]
  | [_], _ => by simp [chain]
  | a :: b :: l, h => by
    have ha : ∀ c ∈ b :: l, 0 ≤ orient x a c := (List.pairwise_cons.mp h).1
    have htl := (List.pairwise_cons.mp h).2
    have hb : ∀ c ∈ b :: l, 0 ≤ orient x b c := by
      intro c hc
      rcases List.mem_cons.mp hc with rfl | hc
      · simp
      · exact (List.pairwise_cons.mp htl).1 c hc
    have hab := ha b (by simp)
    have ha' : ∀ c ∈ chain f (b :: l), 0 ≤ orient x a c := chain_mem_convex (convex_half x a) ha
    have hb' : ∀ c ∈ chain f (b :: l), 0 ≤ orient x b c := chain_mem_convex (convex_half x b) hb
    rw [chain, List.pairwise_append]
    refine ⟨?_, chain_pairwise x htl, ?_⟩
    · rcases step_shape f a b with h | ⟨t, h0, h1, h⟩ | ⟨t, h0, h1, h⟩
      · simp [h]
      · simp [h]
      · rw [h]; simp only [List.pairwise_cons, List.mem_singleton, forall_eq, List.not_mem_nil, false_imp_iff,
          implies_true, List.Pairwise.nil, and_true]
        rw [orient_lerp23]; exact mul_nonneg (by linarith) hab
    · intro u hu v hv
      obtain ⟨t, h0, h1, rfl, -⟩ := step_spec hu
      rw [orient_lerp2]
      have := mul_nonneg (by linarith : (0:ℝ) ≤ 1 - t) (ha' v hv)
      have := mul_nonneg h0 (hb' v hv)
      linarith

theorem chain_conv {f : Aff} : ∀ {L : List Pt}, Conv L → Conv (chain f L)
  | [], _ => by simp [chain, Conv]
  | [_], _ => by simp [chain, Conv]
  | a :: b :: l, h => by
    obtain ⟨hA, hB⟩ := h
    have htl := chain_conv (f := f) hB
    have hab : ∀ c ∈ b :: l, 0 ≤ orient a b c := by
      intro c hc
      rcases List.mem_cons.mp hc with rfl | hc
      · simp
      · exact (List.pairwise_cons.mp hA).1 c hc
    have hab' : ∀ c ∈ chain f (b :: l), 0 ≤ orient a b c := chain_mem_convex (convex_half a b) hab
    have hpa : (chain f (b :: l)).Pairwise (fun u v => 0 ≤ orient a u v) := chain_pairwise a hA
    have hpb : (chain f (b :: l)).Pairwise (fun u v => 0 ≤ orient b u v) := by
      apply chain_pairwise b
      rw [List.pairwise_cons]
      exact ⟨fun c _ => by simp, hB.1⟩
    have hp : ∀ t : ℝ, 0 ≤ t → t ≤ 1 →
        (chain f (b :: l)).Pairwise (fun u v => 0 ≤ orient (lerpP a b t) u v) := by
      intro t h0 h1
      refine (hpa.and hpb).imp ?_
      rintro u v ⟨h2, h3⟩
      rw [orient_lerp1]
      have := mul_nonneg (by linarith : (0:ℝ) ≤ 1 - t) h2
      have := mul_nonneg h0 h3
      linarith
    rw [chain]
    rcases step_shape f a b with h | ⟨t, h0, h1, h⟩ | ⟨t, h0, h1, h⟩
    · rw [h]; exact htl
    · rw [h]; exact ⟨hp t h0 h1, htl⟩
    · rw [h]
      refine ⟨?_, hpb, htl⟩
      show List.Pairwise _ (b :: chain f (b :: l))
      rw [List.pairwise_cons]
      refine ⟨fun v hv => ?_, hp t h0 h1⟩
      rw [orient_lerp12]; exact mul_nonneg (by linarith) (hab' v hv)

theorem conv_append_singleton : ∀ {l : List Pt} {p : Pt}, Conv l → l.Pairwise (fun b c => 0 ≤ orient p b c) →
    Conv (l ++ [p])
  | [], _, _, _ => by simp [Conv]
  | a :: l, p, h, hp => by
    refine ⟨?_, conv_append_singleton h.2 (List.pairwise_cons.mp hp).2⟩
    show List.Pairwise _ (l ++ [p])
    rw [List.pairwise_append]
    refine ⟨h.1, by simp, ?_⟩
    intro u hu v hv
    rw [List.mem_singleton] at hv; subst hv
    rw [← orient_cyc]
    exact (List.pairwise_cons.mp hp).1 u hu

theorem conv_closed {p : Pt} {l : List Pt} (h : Conv (p :: l)) : Conv (p :: l ++ [p]) := by
  apply conv_append_singleton h
  rw [List.pairwise_cons]
  exact ⟨fun _ _ => by simp, h.1⟩

theorem clip_conv {f : Aff} : ∀ {l : List Pt}, Conv l → Conv (clipP f l)
  | [], _ => by simp [clipP, Conv]
  | _ :: _, h => chain_conv (conv_closed h)

/-! ### Coverage -/

theorem ev_comb (f : Aff) (x y : Pt) (s t : ℝ) (h : s + t = 1) : f.ev (s • x + t • y) = s * f.ev x + t * f.ev y := by
  simp only [Aff.ev, Prod.fst_add, Prod.snd_add, Prod.smul_fst, Prod.smul_snd, smul_eq_mul]
  have : s = 1 - t := by linarith
  subst this; ring

theorem convex_nonneg (f : Aff) : Convex ℝ {x | 0 ≤ f.ev x} := by
  intro a ha b hb s t hs ht hst
  simp only [mem_setOf_eq] at *
  rw [ev_comb f a b s t hst]
  have := mul_nonneg hs ha; have := mul_nonneg ht hb; linarith

theorem convex_neg (f : Aff) : Convex ℝ {x | f.ev x < 0} := by
  intro a ha b hb s t hs ht hst
  simp only [mem_setOf_eq] at *
  rw [ev_comb f a b s t hst]
  rcases hs.eq_or_lt with rfl | hs'
  · have : t = 1 := by linarith
    subst this; linarith
  · have := mul_neg_of_pos_of_neg hs' ha
    have := mul_nonpos_of_nonneg_of_nonpos ht hb.le; linarith

/-- For a fixed outside point, the inside points whose crossing lies in a convex set form a convex set. -/
theorem convex_cross_left {f : Aff} {C : Set Pt} (hC : Convex ℝ C) {b : Pt} (hb : f.ev b < 0) :
    Convex ℝ {y | 0 ≤ f.ev y ∧ lerpP y b (crossT f y b) ∈ C} := by
  intro y1 h1 y2 h2 s t hs ht hst
  have hev := ev_comb f y1 y2 s t hst
  obtain ⟨h1a, h1b⟩ := h1
  obtain ⟨h2a, h2b⟩ := h2
  have hd1 : 0 < f.ev y1 - f.ev b := by linarith
  have hd2 : 0 < f.ev y2 - f.ev b := by linarith
  have hd : 0 < s * (f.ev y1 - f.ev b) + t * (f.ev y2 - f.ev b) := by
    rcases hs.eq_or_lt with rfl | hs'
    · have : t = 1 := by linarith
      subst this; linarith
    · have := mul_pos hs' hd1; have := mul_nonneg ht hd2.le; linarith
  have hd' : f.ev (s • y1 + t • y2) - f.ev b = s * (f.ev y1 - f.ev b) + t * (f.ev y2 - f.ev b) := by
    rw [hev]; linear_combination (-f.ev b) * (1 - hst)
  refine ⟨?_, ?_⟩
  · rw [hev]; have := mul_nonneg hs h1a; have := mul_nonneg ht h2a; linarith
  · set D := s * (f.ev y1 - f.ev b) + t * (f.ev y2 - f.ev b) with hD
    have key : lerpP (s • y1 + t • y2) b (crossT f (s • y1 + t • y2) b) =
        (s * (f.ev y1 - f.ev b) / D) • lerpP y1 b (crossT f y1 b) +
        (t * (f.ev y2 - f.ev b) / D) • lerpP y2 b (crossT f y2 b) := by
      have e1 := hd1.ne'; have e2 := hd2.ne'; have e3 := hd.ne'
      unfold crossT
      rw [hd', hev]
      have hs1 : s = 1 - t := by linarith
      ext
      · simp only [lerpP, Prod.fst_add, Prod.smul_fst, smul_eq_mul]
        field_simp
        rw [hD, hs1]; ring
      · simp only [lerpP, Prod.snd_add, Prod.smul_snd, smul_eq_mul]
        field_simp
        rw [hD, hs1]; ring
    rw [key]
    refine hC h1b h2b (div_nonneg (mul_nonneg hs hd1.le) hd.le) (div_nonneg (mul_nonneg ht hd2.le) hd.le) ?_
    rw [← add_div, ← hD, div_self hd.ne']

theorem cross_comm {f : Aff} {a b : Pt} (h : f.ev a - f.ev b ≠ 0) :
    lerpP a b (crossT f a b) = lerpP b a (crossT f b a) := by
  have h' : f.ev b - f.ev a ≠ 0 := fun h0 => h (by linarith)
  unfold crossT
  have e : f.ev b / (f.ev b - f.ev a) = 1 - f.ev a / (f.ev a - f.ev b) := by
    field_simp; ring
  rw [e]
  ext <;> simp only [lerpP] <;> ring

/-- Symmetric statement: negate the function. Outside points whose crossing with a fixed inside point lies in `C`. -/
theorem convex_cross_right {f : Aff} {C : Set Pt} (hC : Convex ℝ C) {a : Pt} (ha : 0 ≤ f.ev a) :
    Convex ℝ {z | f.ev z < 0 ∧ lerpP a z (crossT f a z) ∈ C} := by
  intro z1 h1 z2 h2 s t hs ht hst
  have hev := ev_comb f z1 z2 s t hst
  obtain ⟨h1a, h1b⟩ := h1
  obtain ⟨h2a, h2b⟩ := h2
  have hneg : f.ev (s • z1 + t • z2) < 0 := convex_neg f h1a h2a hs ht hst
  have hd1 : 0 < f.ev a - f.ev z1 := by linarith
  have hd2 : 0 < f.ev a - f.ev z2 := by linarith
  have hd' : f.ev a - f.ev (s • z1 + t • z2) = s * (f.ev a - f.ev z1) + t * (f.ev a - f.ev z2) := by
    rw [hev]; linear_combination (f.ev a) * (1 - hst)
  have hd : 0 < s * (f.ev a - f.ev z1) + t * (f.ev a - f.ev z2) := by rw [← hd']; linarith
  refine ⟨hneg, ?_⟩
  set D := s * (f.ev a - f.ev z1) + t * (f.ev a - f.ev z2) with hD
  have key : lerpP a (s • z1 + t • z2) (crossT f a (s • z1 + t • z2)) =
      (s * (f.ev a - f.ev z1) / D) • lerpP a z1 (crossT f a z1) +
      (t * (f.ev a - f.ev z2) / D) • lerpP a z2 (crossT f a z2) := by
    have e1 := hd1.ne'; have e2 := hd2.ne'; have e3 := hd.ne'
    unfold crossT
    rw [hd']
    have hs1 : s = 1 - t := by linarith
    ext
    · simp only [lerpP, Prod.fst_add, Prod.smul_fst, smul_eq_mul]
      field_simp
      rw [hD, hs1]; ring
    · simp only [lerpP, Prod.snd_add, Prod.smul_snd, smul_eq_mul]
      field_simp
      rw [hD, hs1]; ring
  rw [key]
  refine hC h1b h2b (div_nonneg (mul_nonneg hs hd1.le) hd.le) (div_nonneg (mul_nonneg ht hd2.le) hd.le) ?_
  rw [← add_div, ← hD, div_self hd.ne']

/-- The part of a convex hull inside a half plane is generated by the inside points and the crossings. -/
theorem hull_inter_half {f : Aff} {S C : Set Pt} (hC : Convex ℝ C)
    (hin : ∀ a ∈ S, 0 ≤ f.ev a → a ∈ C)
    (hcr : ∀ a ∈ S, ∀ b ∈ S, 0 ≤ f.ev a → f.ev b < 0 → lerpP a b (crossT f a b) ∈ C)
    {x : Pt} (hx : x ∈ convexHull ℝ S) (hfx : 0 ≤ f.ev x) : x ∈ C := by
  set I := {a ∈ S | 0 ≤ f.ev a} with hI
  set O := {a ∈ S | f.ev a < 0} with hO
  have hS : S = I ∪ O := by
    ext a; simp only [hI, hO, mem_union, mem_setOf_eq]
    constructor
    · intro h; rcases le_or_gt 0 (f.ev a) with h' | h'
      · exact Or.inl ⟨h, h'⟩
      · exact Or.inr ⟨h, h'⟩
    · rintro (h | h) <;> exact h.1
  have hIC : convexHull ℝ I ⊆ C := convexHull_min (fun a ha => hin a ha.1 ha.2) hC
  have hIp : convexHull ℝ I ⊆ {x | 0 ≤ f.ev x} := convexHull_min (fun a ha => ha.2) (convex_nonneg f)
  have hOn : convexHull ℝ O ⊆ {x | f.ev x < 0} := convexHull_min (fun a ha => ha.2) (convex_neg f)
  rcases I.eq_empty_or_nonempty with hIe | hIn
  · rw [hS, hIe, empty_union] at hx
    have := hOn hx; simp only [mem_setOf_eq] at this; linarith
  rcases O.eq_empty_or_nonempty with hOe | hOne
  · rw [hS, hOe, union_empty] at hx; exact hIC hx
  rw [hS, convexHull_union hIn hOne, mem_convexJoin] at hx
  obtain ⟨y, hy, z, hz, hxs⟩ := hx
  have hcr2 : ∀ b ∈ O, convexHull ℝ I ⊆ {y | 0 ≤ f.ev y ∧ lerpP y b (crossT f y b) ∈ C} := by
    intro b hb
    exact convexHull_min (fun a ha => ⟨ha.2, hcr a ha.1 b hb.1 ha.2 hb.2⟩) (convex_cross_left hC hb.2)
  have hcr3 : convexHull ℝ O ⊆ {z | f.ev z < 0 ∧ lerpP y z (crossT f y z) ∈ C} :=
    convexHull_min (fun b hb => ⟨hb.2, (hcr2 b hb hy).2⟩) (convex_cross_right hC (hIp hy))
  have hc := (hcr3 hz).2
  have hyC := hIC hy
  have hfy : 0 ≤ f.ev y := hIp hy
  have hfz : f.ev z < 0 := hOn hz
  obtain ⟨s, t, hs, ht, hst, rfl⟩ := hxs
  rw [ev_comb f y z s t hst] at hfx
  -- x lies between y and the crossing
  set c := crossT f y z with hcdef
  have hd : 0 < f.ev y - f.ev z := by linarith
  have htc : t ≤ c := by
    rw [hcdef, crossT, le_div_iff₀ hd]
    have : s = 1 - t := by linarith
    subst this; linarith
  rcases (crossT_mem (f := f) (a := y) (b := z) (Or.inl ⟨hfy, hfz⟩)) with ⟨hc0, hc1⟩
  rcases hc0.eq_or_lt with h0 | h0
  · have ht0 : t = 0 := by rw [← hcdef] at h0; linarith
    have hs1 : s = 1 := by linarith
    subst ht0; subst hs1
    simpa using hyC
  · rw [← hcdef] at h0
    have : s • y + t • z = (1 - t / c) • y + (t / c) • lerpP y z c := by
      have hs1 : s = 1 - t := by linarith
      ext
      · simp only [lerpP, Prod.fst_add, Prod.smul_fst, smul_eq_mul]; field_simp; rw [hs1]; ring
      · simp only [lerpP, Prod.snd_add, Prod.smul_snd, smul_eq_mul]; field_simp; rw [hs1]; ring
    rw [this]
    refine hC hyC hc ?_ (div_nonneg ht h0.le) (by ring)
    rw [sub_nonneg, div_le_one h0]; exact htc

/-- Every inside vertex of a chain except possibly its head is emitted. -/
theorem mem_chain_of_inside {f : Aff} : ∀ {L : List Pt} {a : Pt} {x : Pt}, x ∈ L → 0 ≤ f.ev x → x ∈ chain f (a :: L)
  | [], _, _, h, _ => by simp at h
  | b :: l, a, x, h, hx => by
    rw [chain, List.mem_append]
    rcases List.mem_cons.mp h with rfl | h
    · left
      unfold stepP
      by_cases ha : 0 ≤ f.ev a
      · simp [ha, hx]
      · simp [ha, hx]
    · right; exact mem_chain_of_inside h hx

theorem clip_mem_inside {f : Aff} {l : List Pt} {x : Pt} (h : x ∈ l) (hx : 0 ≤ f.ev x) : x ∈ clipP f l := by
  cases l with
  | nil => simp at h
  | cons p l =>
    show x ∈ chain f (p :: (l ++ [p]))
    apply mem_chain_of_inside _ hx
    rcases List.mem_cons.mp h with rfl | h
    · simp
    · simp [h]

/-- A chain that starts inside and ends outside emits a point of the boundary line, lying in every convex set
containing the chain. -/
theorem exists_leaving {f : Aff} : ∀ {L : List Pt} {a b : Pt}, 0 ≤ f.ev a → f.ev b < 0 →
    ∃ e ∈ chain f (a :: L ++ [b]), f.ev e = 0
  | [], a, b, ha, hb => by
    refine ⟨lerpP a b (crossT f a b), ?_, ev_cross (by linarith)⟩
    show _ ∈ chain f [a, b]
    simp [chain, stepP, ha, not_le.mpr hb]
  | c :: L, a, b, ha, hb => by
    by_cases hc : 0 ≤ f.ev c
    · obtain ⟨e, he, h0⟩ := exists_leaving (L := L) hc hb
      refine ⟨e, ?_, h0⟩
      show e ∈ chain f (a :: c :: (L ++ [b]))
      rw [chain, List.mem_append]; right; exact he
    · refine ⟨lerpP a c (crossT f a c), ?_, ev_cross (by push Not at hc; linarith)⟩
      show _ ∈ chain f (a :: c :: (L ++ [b]))
      rw [chain, List.mem_append]; left; simp [stepP, ha, hc]

theorem exists_entering {f : Aff} : ∀ {L : List Pt} {a b : Pt}, f.ev a < 0 → 0 ≤ f.ev b →
    ∃ e ∈ chain f (a :: L ++ [b]), f.ev e = 0
  | [], a, b, ha, hb => by
    refine ⟨lerpP a b (crossT f a b), ?_, ev_cross (by linarith)⟩
    show _ ∈ chain f [a, b]
    simp [chain, stepP, hb, not_le.mpr ha]
  | c :: L, a, b, ha, hb => by
    by_cases hc : 0 ≤ f.ev c
    · refine ⟨lerpP a c (crossT f a c), ?_, ev_cross (by linarith)⟩
      show _ ∈ chain f (a :: c :: (L ++ [b]))
      rw [chain, List.mem_append]; left; simp [stepP, hc, not_le.mpr ha]
    · obtain ⟨e, he, h0⟩ := exists_entering (L := L) (not_le.mp hc) hb
      refine ⟨e, ?_, h0⟩
      show e ∈ chain f (a :: c :: (L ++ [b]))
      rw [chain, List.mem_append]; right; exact he

/-- The crossing of a diagonal lies between the two boundary crossings. -/
theorem diagonal_cross {f : Aff} {a b e1 e2 : Pt} {C : Set Pt} (hC : Convex ℝ C) (h1 : e1 ∈ C) (h2 : e2 ∈ C)
    (hf1 : f.ev e1 = 0) (hf2 : f.ev e2 = 0) (ha : 0 ≤ f.ev a) (hb : f.ev b < 0)
    (ho1 : 0 ≤ orient a e1 b) (ho2 : 0 ≤ orient a b e2) : lerpP a b (crossT f a b) ∈ C := by
  have hd : 0 < f.ev a - f.ev b := by linarith
  -- a point on the zero line with orient a b = 0 is the crossing
  have uniq : ∀ w : Pt, f.ev w = 0 → orient a b w = 0 → w = lerpP a b (crossT f a b) := by
    intro w hw how
    have hw' : f.k + f.u * w.1 + f.v * w.2 = 0 := hw
    unfold crossT
    unfold orient at how
    have e : f.ev a - f.ev b ≠ 0 := hd.ne'
    ext
    · simp only [lerpP]
      rw [div_mul_eq_mul_div, ← sub_eq_iff_eq_add', eq_div_iff e]
      simp only [Aff.ev] at *
      linear_combination (a.1 - b.1) * hw' + f.v * how
    · simp only [lerpP]
      rw [div_mul_eq_mul_div, ← sub_eq_iff_eq_add', eq_div_iff e]
      simp only [Aff.ev] at *
      linear_combination (a.2 - b.2) * hw' - f.u * how
  have ho1' : orient a b e1 ≤ 0 := by rw [orient_swap]; linarith
  rcases eq_or_ne (orient a b e1) 0 with h0 | h0
  · rw [← uniq e1 hf1 h0]; exact h1
  have hneg : orient a b e1 < 0 := lt_of_le_of_ne ho1' h0
  set D := orient a b e2 - orient a b e1 with hD
  have hDp : 0 < D := by linarith
  set w : Pt := (orient a b e2 / D) • e1 + (-orient a b e1 / D) • e2 with hw
  have hsum : orient a b e2 / D + -orient a b e1 / D = 1 := by
    rw [← add_div, ← sub_eq_add_neg, ← hD, div_self hDp.ne']
  have hwC : w ∈ C := hC h1 h2 (div_nonneg ho2 hDp.le) (div_nonneg (by linarith) hDp.le) hsum
  have hfw : f.ev w = 0 := by rw [hw, ev_comb _ _ _ _ _ hsum, hf1, hf2]; ring
  have how : orient a b w = 0 := by
    have : ∀ (s t : ℝ) (x y : Pt), s + t = 1 → orient a b (s • x + t • y) = s * orient a b x + t * orient a b y := by
      intro s t x y h
      have : s = 1 - t := by linarith
      subst this
      simp only [orient, Prod.fst_add, Prod.snd_add, Prod.smul_fst, Prod.smul_snd, smul_eq_mul]; ring
    rw [hw, this _ _ _ _ hsum]; field_simp; ring
  rw [← uniq w hfw how]; exact hwC

theorem chain_append_split (f : Aff) : ∀ (l1 : List Pt) (x : Pt) (l2 : List Pt),
    chain f (l1 ++ x :: l2) = chain f (l1 ++ [x]) ++ chain f (x :: l2)
  | [], x, l2 => by simp [chain]
  | [a], x, l2 => by simp [chain]
  | a :: b :: l1, x, l2 => by
    have := chain_append_split f (b :: l1) x l2
    simp only [List.cons_append, chain, List.append_assoc] at this ⊢
    rw [this]

/-- Clipping a rotated polygon emits the same points. -/
theorem clip_rotate_mem (f : Aff) (a : Pt) (l1 l2 : List Pt) (x : Pt) :
    x ∈ clipP f (l1 ++ a :: l2) ↔ x ∈ chain f (a :: (l2 ++ l1) ++ [a]) := by
  cases l1 with
  | nil => simp [clipP]
  | cons p l1 =>
    have e1 : clipP f (p :: l1 ++ a :: l2) = chain f ((p :: l1) ++ a :: (l2 ++ [p])) := by
      show chain f (p :: (l1 ++ a :: l2) ++ [p]) = _
      congr 1; simp
    have e2 : chain f (a :: (l2 ++ p :: l1) ++ [a]) = chain f ((a :: l2) ++ p :: (l1 ++ [a])) := by
      congr 1; simp
    rw [e1, e2, chain_append_split f (p :: l1) a, chain_append_split f (a :: l2) p]
    simp only [List.mem_append, List.cons_append]
    tauto

theorem conv_append_left : ∀ {l1 l2 : List Pt}, Conv (l1 ++ l2) → Conv l2
  | [], _, h => h
  | _ :: l1, _, h => conv_append_left (l1 := l1) h.2

theorem conv_rotate1 {a : Pt} {l : List Pt} (h : Conv (a :: l)) : Conv (l ++ [a]) :=
  conv_append_singleton h.2 h.1

theorem conv_rotate : ∀ {l1 l2 : List Pt}, Conv (l1 ++ l2) → Conv (l2 ++ l1)
  | [], _, h => by simpa using h
  | a :: l1, l2, h => by
    have h1 : Conv (l1 ++ (l2 ++ [a])) := by
      have := conv_rotate1 (a := a) (l := l1 ++ l2) h
      simpa using this
    have := conv_rotate (l1 := l1) h1
    simpa using this

/-- One pass keeps exactly the part of the polygon inside the plane. -/
theorem clip_hull {f : Aff} {l : List Pt} (h : Conv l) :
    convexHull ℝ {x | x ∈ clipP f l} = convexHull ℝ {x | x ∈ l} ∩ {x | 0 ≤ f.ev x} := by
  apply Subset.antisymm
  · apply convexHull_min _ ((convex_convexHull ℝ _).inter (convex_nonneg f))
    intro x hx
    cases l with
    | nil => simp [clipP] at hx
    | cons p l =>
      refine ⟨?_, chain_inside x hx⟩
      refine chain_mem_convex (convex_convexHull ℝ _) ?_ x hx
      intro c hc
      apply subset_convexHull
      simp only [mem_setOf_eq]
      simp only [List.cons_append, List.mem_cons, List.mem_append, List.not_mem_nil, or_false] at hc ⊢
      tauto
  · rintro x ⟨hx, hfx⟩
    refine hull_inter_half (convex_convexHull ℝ _) ?_ ?_ hx hfx
    · intro a ha hfa
      exact subset_convexHull ℝ _ (clip_mem_inside ha hfa)
    · intro a ha b hb hfa hfb
      obtain ⟨l1, l2, rfl⟩ := List.append_of_mem (show a ∈ l from ha)
      have hab : b ≠ a := by rintro rfl; linarith
      have hb' : b ∈ l2 ++ l1 := by
        have : b ∈ l1 ++ a :: l2 := hb
        simp only [List.mem_append, List.mem_cons] at this ⊢
        tauto
      obtain ⟨m1, m2, hm⟩ := List.append_of_mem hb'
      have hrot : Conv (a :: (m1 ++ b :: m2)) := by
        have := conv_rotate (l1 := l1) h
        simpa [← hm] using this
      have hmem : ∀ e, e ∈ chain f (a :: (m1 ++ b :: m2) ++ [a]) →
          e ∈ convexHull ℝ {x | x ∈ clipP f (l1 ++ a :: l2)} := by
        intro e he
        apply subset_convexHull
        show e ∈ clipP f (l1 ++ a :: l2)
        rw [clip_rotate_mem, hm]; exact he
      have hsplit : chain f (a :: (m1 ++ b :: m2) ++ [a]) =
          chain f (a :: m1 ++ [b]) ++ chain f (b :: m2 ++ [a]) := by
        rw [show a :: (m1 ++ b :: m2) ++ [a] = (a :: m1) ++ b :: (m2 ++ [a]) by simp, chain_append_split]
        simp
      obtain ⟨e1, he1, hf1⟩ := exists_leaving (f := f) (L := m1) hfa hfb
      obtain ⟨e2, he2, hf2⟩ := exists_entering (f := f) (L := m2) hfb hfa
      have hp := hrot.1
      rw [List.pairwise_append] at hp
      refine diagonal_cross (convex_convexHull ℝ _) (hmem e1 ?_) (hmem e2 ?_) hf1 hf2 hfa hfb ?_ ?_
      · rw [hsplit, List.mem_append]; exact Or.inl he1
      · rw [hsplit, List.mem_append]; exact Or.inr he2
      · refine chain_mem_convex (convex_half' a b) ?_ e1 he1
        intro c hc
        simp only [List.cons_append, List.mem_cons, List.mem_append, List.not_mem_nil, or_false, mem_setOf_eq] at hc ⊢
        rcases hc with rfl | hc | rfl
        · simp
        · exact hp.2.2 c hc b (by simp)
        · simp
      · refine chain_mem_convex (convex_half a b) ?_ e2 he2
        intro c hc
        simp only [List.cons_append, List.mem_cons, List.mem_append, List.not_mem_nil, or_false, mem_setOf_eq] at hc ⊢
        rcases hc with rfl | hc | rfl
        · simp
        · exact (List.pairwise_cons.mp hp.2.1).1 c hc
        · simp

end
end Huira.Frustum
