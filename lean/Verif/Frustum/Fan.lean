import Verif.Frustum.Poly
/-!
# Fan triangulation of convex polygons (mathematics used by the frustum proofs)
-/
namespace Huira.Frustum
noncomputable section
open Set

/-- `x` is a convex combination of `p, a, b`. -/
def InTri (p a b x : Pt) : Prop :=
  ∃ u v w : ℝ, 0 ≤ u ∧ 0 ≤ v ∧ 0 ≤ w ∧ u + v + w = 1 ∧ x = u • p + v • a + w • b

theorem inTri_convex (p a b : Pt) : Convex ℝ {x | InTri p a b x} := by
  rintro x ⟨u, v, w, hu, hv, hw, h1, rfl⟩ y ⟨u', v', w', hu', hv', hw', h1', rfl⟩ s t hs ht hst
  refine ⟨s * u + t * u', s * v + t * v', s * w + t * w', by positivity, by positivity, by positivity, ?_, ?_⟩
  · linear_combination s * h1 + t * h1' + hst
  · ext
    · simp only [Prod.fst_add, Prod.smul_fst, smul_eq_mul]; ring
    · simp only [Prod.snd_add, Prod.smul_snd, smul_eq_mul]; ring

theorem inTri_p (p a b : Pt) : InTri p a b p := ⟨1, 0, 0, by norm_num, by norm_num, by norm_num, by norm_num, by simp⟩
theorem inTri_a (p a b : Pt) : InTri p a b a := ⟨0, 1, 0, by norm_num, by norm_num, by norm_num, by norm_num, by simp⟩
theorem inTri_b (p a b : Pt) : InTri p a b b := ⟨0, 0, 1, by norm_num, by norm_num, by norm_num, by norm_num, by simp⟩

theorem inTri_mem {C : Set Pt} (hC : Convex ℝ C) {p a b x : Pt} (hp : p ∈ C) (ha : a ∈ C) (hb : b ∈ C)
    (h : InTri p a b x) : x ∈ C := by
  obtain ⟨u, v, w, hu, hv, hw, h1, rfl⟩ := h
  rcases (add_nonneg hu hv).eq_or_lt with h0 | h0
  · have : u = 0 := by linarith
    have : v = 0 := by linarith
    have : w = 1 := by linarith
    subst_vars; simpa using hb
  · have : u • p + v • a + w • b = (u + v) • ((u / (u + v)) • p + (v / (u + v)) • a) + w • b := by
      rw [smul_add, smul_smul, smul_smul, mul_div_cancel₀ _ h0.ne', mul_div_cancel₀ _ h0.ne']
    rw [this]
    exact hC (hC hp ha (by positivity) (by positivity) (by rw [← add_div, div_self h0.ne'])) hb h0.le hw h1

theorem hull_triple (p a b : Pt) : convexHull ℝ {p, a, b} = {x | InTri p a b x} := by
  apply Subset.antisymm
  · apply convexHull_min _ (inTri_convex p a b)
    rintro x (rfl | rfl | rfl)
    · exact inTri_p ..
    · exact inTri_a ..
    · exact inTri_b ..
  · intro x hx
    refine inTri_mem (convex_convexHull ℝ _) ?_ ?_ ?_ hx <;> apply subset_convexHull <;> simp

/-- Collinear points have a common direction. -/
theorem collinear_param {p a b c : Pt} (h1 : orient p a b = 0) (h2 : orient p b c = 0) (h3 : orient p a c = 0) :
    ∃ (d : Pt) (α β γ : ℝ), a = p + α • d ∧ b = p + β • d ∧ c = p + γ • d := by
  -- choose a nonzero difference if there is one
  have key : ∀ q : Pt, q ≠ p → ∀ r : Pt, orient p q r = 0 → ∃ t : ℝ, r = p + t • (q - p) := by
    intro q hq r hr
    unfold orient at hr
    by_cases hx : q.1 - p.1 = 0
    · have hy : q.2 - p.2 ≠ 0 := by
        intro hy; apply hq; ext <;> linarith
      refine ⟨(r.2 - p.2) / (q.2 - p.2), ?_⟩
      have hr1 : r.1 - p.1 = 0 := by
        rw [hx] at hr
        have : (q.2 - p.2) * (r.1 - p.1) = 0 := by linarith
        rcases mul_eq_zero.mp this with h | h
        · exact absurd h hy
        · exact h
      ext
      · simp only [Prod.fst_add, Prod.smul_fst, Prod.fst_sub, smul_eq_mul]; rw [hx]; linarith
      · simp only [Prod.snd_add, Prod.smul_snd, Prod.snd_sub, smul_eq_mul]; field_simp; ring
    · refine ⟨(r.1 - p.1) / (q.1 - p.1), ?_⟩
      ext
      · simp only [Prod.fst_add, Prod.smul_fst, Prod.fst_sub, smul_eq_mul]; field_simp; ring
      · simp only [Prod.snd_add, Prod.smul_snd, Prod.snd_sub, smul_eq_mul]; field_simp; linear_combination hr
  by_cases ha : a = p
  · by_cases hb : b = p
    · exact ⟨c - p, 0, 0, 1, by simp [ha], by simp [hb], by simp⟩
    · obtain ⟨t, ht⟩ := key b hb c h2
      exact ⟨b - p, 0, 1, t, by simp [ha], by simp, ht⟩
  · obtain ⟨t, ht⟩ := key a ha b h1
    obtain ⟨t', ht'⟩ := key a ha c h3
    exact ⟨a - p, 1, t, t', by simp, ht, ht'⟩

theorem line_cover {p d : Pt} {α β γ ξ : ℝ} (u v w : ℝ) (hu : 0 ≤ u) (hv : 0 ≤ v) (hw : 0 ≤ w) (hs : u + v + w ≤ 1)
    (hξ : ξ = u * α + v * β + w * γ) :
    InTri p (p + α • d) (p + β • d) (p + ξ • d) ∨ InTri p (p + β • d) (p + γ • d) (p + ξ • d) := by
  -- it suffices that ξ is a fraction of one of α, β, γ
  have fa : ∀ s : ℝ, 0 ≤ s → s ≤ 1 → ξ = s * α → InTri p (p + α • d) (p + β • d) (p + ξ • d) := by
    intro s h0 h1 h
    refine ⟨1 - s, s, 0, by linarith, h0, le_refl _, by ring, ?_⟩
    ext <;> simp [h] <;> ring
  have fb : ∀ s : ℝ, 0 ≤ s → s ≤ 1 → ξ = s * β → InTri p (p + α • d) (p + β • d) (p + ξ • d) := by
    intro s h0 h1 h
    refine ⟨1 - s, 0, s, by linarith, le_refl _, h0, by ring, ?_⟩
    ext <;> simp [h] <;> ring
  have fc : ∀ s : ℝ, 0 ≤ s → s ≤ 1 → ξ = s * γ → InTri p (p + β • d) (p + γ • d) (p + ξ • d) := by
    intro s h0 h1 h
    refine ⟨1 - s, 0, s, by linarith, le_refl _, h0, by ring, ?_⟩
    ext <;> simp [h] <;> ring
  have frac : ∀ m : ℝ, (0 ≤ ξ ∧ ξ ≤ m) ∨ (ξ ≤ 0 ∧ m ≤ ξ) → ∃ s, 0 ≤ s ∧ s ≤ 1 ∧ ξ = s * m := by
    intro m hm
    by_cases h0 : m = 0
    · subst h0
      refine ⟨0, le_refl _, by norm_num, ?_⟩
      rcases hm with h | h <;> linarith
    · refine ⟨ξ / m, ?_, ?_, by field_simp⟩
      · rcases hm with h | h
        · exact div_nonneg h.1 (h.1.trans h.2)
        · exact div_nonneg_of_nonpos h.1 (h.2.trans h.1)
      · rcases hm with h | h
        · exact div_le_one_of_le₀ h.2 (h.1.trans h.2)
        · exact div_le_one_of_ge h.2 (h.2.trans h.1)
  by_cases hz : ξ = 0
  · exact Or.inl (fa 0 (le_refl _) (by norm_num) (by rw [hz]; ring))
  -- if ξ ≥ 0 some of the three is at least ξ, otherwise some is at most ξ
  rcases le_total 0 ξ with h0 | h0
  · by_cases hα : ξ ≤ α
    · obtain ⟨s, a, b, c⟩ := frac α (Or.inl ⟨h0, hα⟩); exact Or.inl (fa s a b c)
    by_cases hβ : ξ ≤ β
    · obtain ⟨s, a, b, c⟩ := frac β (Or.inl ⟨h0, hβ⟩); exact Or.inl (fb s a b c)
    by_cases hγ : ξ ≤ γ
    · obtain ⟨s, a, b, c⟩ := frac γ (Or.inl ⟨h0, hγ⟩); exact Or.inr (fc s a b c)
    exfalso
    push Not at hα hβ hγ
    have h1 := mul_le_mul_of_nonneg_left hα.le hu
    have h2 := mul_le_mul_of_nonneg_left hβ.le hv
    have h3 := mul_le_mul_of_nonneg_left hγ.le hw
    rcases hu.eq_or_lt with rfl | hu'
    · rcases hv.eq_or_lt with rfl | hv'
      · rcases hw.eq_or_lt with rfl | hw'
        · exact hz (by linarith)
        · nlinarith [mul_lt_mul_of_pos_left hγ hw']
      · nlinarith [mul_lt_mul_of_pos_left hβ hv']
    · nlinarith [mul_lt_mul_of_pos_left hα hu']
  · by_cases hα : α ≤ ξ
    · obtain ⟨s, a, b, c⟩ := frac α (Or.inr ⟨h0, hα⟩); exact Or.inl (fa s a b c)
    by_cases hβ : β ≤ ξ
    · obtain ⟨s, a, b, c⟩ := frac β (Or.inr ⟨h0, hβ⟩); exact Or.inl (fb s a b c)
    by_cases hγ : γ ≤ ξ
    · obtain ⟨s, a, b, c⟩ := frac γ (Or.inr ⟨h0, hγ⟩); exact Or.inr (fc s a b c)
    exfalso
    push Not at hα hβ hγ
    have h1 := mul_le_mul_of_nonneg_left hα.le hu
    have h2 := mul_le_mul_of_nonneg_left hβ.le hv
    have h3 := mul_le_mul_of_nonneg_left hγ.le hw
    rcases hu.eq_or_lt with rfl | hu'
    · rcases hv.eq_or_lt with rfl | hv'
      · rcases hw.eq_or_lt with rfl | hw'
        · exact hz (by linarith)
        · nlinarith [mul_lt_mul_of_pos_left hγ hw']
      · nlinarith [mul_lt_mul_of_pos_left hβ hv']
    · nlinarith [mul_lt_mul_of_pos_left hα hu']

/-- A convex quadrilateral is covered by the two triangles on either side of its diagonal. -/
theorem quad_cover {p a b c : Pt} (h1 : 0 ≤ orient p a b) (h2 : 0 ≤ orient p b c) (h3 : 0 ≤ orient p a c)
    (h4 : 0 ≤ orient a b c) {x : Pt} (w0 w1 w2 w3 : ℝ) (g0 : 0 ≤ w0) (g1 : 0 ≤ w1) (g2 : 0 ≤ w2) (g3 : 0 ≤ w3)
    (hs : w0 + w1 + w2 + w3 = 1) (hx : x = w0 • p + w1 • a + w2 • b + w3 • c) : InTri p a b x ∨ InTri p b c x := by
  have hsum : orient a b c + orient p a c = orient p b c + orient p a b := by simp only [orient]; ring
  have hrel1 : orient a b c * p.1 + orient p a c * b.1 = orient p b c * a.1 + orient p a b * c.1 := by
    simp only [orient]; ring
  have hrel2 : orient a b c * p.2 + orient p a c * b.2 = orient p b c * a.2 + orient p a b * c.2 := by
    simp only [orient]; ring
  have hx1 : x.1 = w0 * p.1 + w1 * a.1 + w2 * b.1 + w3 * c.1 := by rw [hx]; simp
  have hx2 : x.2 = w0 * p.2 + w1 * a.2 + w2 * b.2 + w3 * c.2 := by rw [hx]; simp
  -- moving weight from `a` and `c` to `p` and `b`
  have left : ∀ t : ℝ, 0 ≤ t → t * orient p b c ≤ w1 → t * orient p a b = w3 → InTri p a b x := by
    intro t ht hw1 hw3
    refine ⟨w0 + t * orient a b c, w1 - t * orient p b c, w2 + t * orient p a c, by positivity, by linarith,
      by positivity, ?_, ?_⟩
    · rw [← hw3] at hs; linear_combination hs + t * hsum
    · ext
      · simp only [Prod.fst_add, Prod.smul_fst, smul_eq_mul]; rw [hx1, ← hw3]; linear_combination (-t) * hrel1
      · simp only [Prod.snd_add, Prod.smul_snd, smul_eq_mul]; rw [hx2, ← hw3]; linear_combination (-t) * hrel2
  have right : ∀ t : ℝ, 0 ≤ t → t * orient p b c = w1 → t * orient p a b ≤ w3 → InTri p b c x := by
    intro t ht hw1 hw3
    refine ⟨w0 + t * orient a b c, w2 + t * orient p a c, w3 - t * orient p a b, by positivity, by positivity,
      by linarith, ?_, ?_⟩
    · rw [← hw1] at hs; linear_combination hs + t * hsum
    · ext
      · simp only [Prod.fst_add, Prod.smul_fst, smul_eq_mul]; rw [hx1, ← hw1]; linear_combination (-t) * hrel1
      · simp only [Prod.snd_add, Prod.smul_snd, smul_eq_mul]; rw [hx2, ← hw1]; linear_combination (-t) * hrel2
  rcases h1.eq_or_lt with e1 | e1
  · rcases h2.eq_or_lt with e2 | e2
    · -- all four points on one line
      have e3 : orient p a c = 0 := by linarith
      obtain ⟨d, α, β, γ, rfl, rfl, rfl⟩ := collinear_param e1.symm e2.symm e3
      have hx' : x = p + (w1 * α + w2 * β + w3 * γ) • d := by
        rw [hx]
        ext
        · simp only [Prod.fst_add, Prod.smul_fst, smul_eq_mul]; linear_combination p.1 * hs
        · simp only [Prod.snd_add, Prod.smul_snd, smul_eq_mul]; linear_combination p.2 * hs
      rw [hx']
      exact line_cover w1 w2 w3 g1 g2 g3 (by linarith) rfl
    · right
      refine right (w1 / orient p b c) (by positivity) (by field_simp) ?_
      rw [← e1]; simpa using g3
  · rcases h2.eq_or_lt with e2 | e2
    · left
      refine left (w3 / orient p a b) (by positivity) ?_ (by field_simp)
      rw [← e2]; simpa using g1
    · rcases le_total (w1 / orient p b c) (w3 / orient p a b) with h | h
      · right
        refine right (w1 / orient p b c) (by positivity) (by field_simp) ?_
        calc w1 / orient p b c * orient p a b ≤ w3 / orient p a b * orient p a b :=
              mul_le_mul_of_nonneg_right h e1.le
          _ = w3 := by field_simp
      · left
        refine left (w3 / orient p a b) (by positivity) ?_ (by field_simp)
        calc w3 / orient p a b * orient p b c ≤ w1 / orient p b c * orient p b c :=
              mul_le_mul_of_nonneg_right h e2.le
          _ = w1 := by field_simp

theorem setOf_mem_cons (a : Pt) (l : List Pt) : {x | x ∈ a :: l} = insert a {x | x ∈ l} := by
  ext x; simp

/-- Consecutive pairs of the tail: the edges opposite the apex of the fan. -/
def fanPairs (l : List Pt) : List (Pt × Pt) := l.zip l.tail

theorem fanPairs_mem {l : List Pt} {q : Pt × Pt} (h : q ∈ fanPairs l) : q.1 ∈ l ∧ q.2 ∈ l :=
  ⟨(List.of_mem_zip h).1, List.mem_of_mem_tail (List.of_mem_zip h).2⟩

theorem fanPairs_sublist : ∀ {l : List Pt} {q : Pt × Pt}, q ∈ fanPairs l → [q.1, q.2].Sublist l
  | [], _, h => by simp [fanPairs] at h
  | [_], _, h => by simp [fanPairs] at h
  | a :: b :: l, q, h => by
    have h' : q = (a, b) ∨ q ∈ fanPairs (b :: l) := by simpa [fanPairs] using h
    rcases h' with rfl | h
    · simp
    · exact (fanPairs_sublist h).cons _

theorem conv_sublist : ∀ {l m : List Pt}, l.Sublist m → Conv m → Conv l
  | _, _, .slnil, _ => trivial
  | _, _, .cons a h, hm => conv_sublist h hm.2
  | _, _, .cons_cons a h, hm => ⟨hm.1.sublist h, conv_sublist h hm.2⟩

theorem conv_triple {a b c : Pt} (h : Conv [a, b, c]) : 0 ≤ orient a b c := by
  have := h.1; simpa using this

/-- Cutting off the first ear of a convex polygon. -/
theorem fan_cover : ∀ {rest : List Pt} {p a b x : Pt}, Conv (p :: a :: b :: rest) →
    x ∈ convexHull ℝ {y | y ∈ p :: a :: b :: rest} → ∃ q ∈ fanPairs (a :: b :: rest), InTri p q.1 q.2 x
  | [], p, a, b, x, _, hx => by
    refine ⟨(a, b), by simp [fanPairs], ?_⟩
    have : {y | y ∈ [p, a, b]} = ({p, a, b} : Set Pt) := by ext y; simp
    rw [this, hull_triple] at hx; exact hx
  | c :: rest, p, a, b, x, hc, hx => by
    -- separate `a` from the hull of the others
    have hset : {y | y ∈ p :: a :: b :: c :: rest} = insert a {y | y ∈ p :: b :: c :: rest} := by
      ext y; simp only [List.mem_cons, mem_setOf_eq, mem_insert_iff]; tauto
    rw [hset, convexHull_insert ⟨p, by simp⟩, mem_convexJoin] at hx
    obtain ⟨a', ha', y, hy, hxs⟩ := hx
    rw [mem_singleton_iff] at ha'; subst ha'
    have hc' : Conv (p :: b :: c :: rest) := by
      refine conv_sublist ?_ hc
      exact List.Sublist.cons_cons _ (List.sublist_cons_self _ _)
    obtain ⟨⟨e, g⟩, hq, hyt⟩ := fan_cover hc' hy
    have hsub := fanPairs_sublist hq
    have hcons : ∀ q, q ∈ fanPairs (b :: c :: rest) → q ∈ fanPairs (a' :: b :: c :: rest) := by
      intro q hq; simp only [fanPairs, List.tail_cons, List.zip_cons_cons, List.mem_cons] at hq ⊢; exact Or.inr hq
    have ct : ∀ u v : Pt, [u, v].Sublist (a' :: b :: c :: rest) → 0 ≤ orient p u v :=
      fun u v h => conv_triple (conv_sublist (h.cons_cons p) hc)
    have ct3 : ∀ u v w : Pt, [u, v, w].Sublist (a' :: b :: c :: rest) → 0 ≤ orient u v w :=
      fun u v w h => conv_triple (conv_sublist (h.cons p) hc)
    have hsub1 : [e, g].Sublist (a' :: b :: c :: rest) := hsub.cons _
    have hsubae : [a', e].Sublist (a' :: b :: c :: rest) :=
      List.Sublist.cons_cons _ ((List.singleton_sublist.mpr (fanPairs_mem hq).1))
    have hsubag : [a', g].Sublist (a' :: b :: c :: rest) :=
      List.Sublist.cons_cons _ ((List.singleton_sublist.mpr (fanPairs_mem hq).2))
    have hsubaeg : [a', e, g].Sublist (a' :: b :: c :: rest) := hsub.cons_cons _
    obtain ⟨s, t, hs, ht, hst, rfl⟩ := hxs
    obtain ⟨u, v, w, hu, hv, hw, hsum, rfl⟩ := hyt
    have := quad_cover (x := s • a' + t • (u • p + v • e + w • g)) (ct _ _ hsubae) (ct _ _ hsub1) (ct _ _ hsubag)
      (ct3 _ _ _ hsubaeg) (t * u) s (t * v) (t * w) (by positivity) hs (by positivity) (by positivity)
      (by linear_combination t * hsum + hst)
      (by ext
          · simp only [Prod.fst_add, Prod.smul_fst, smul_eq_mul]; ring
          · simp only [Prod.snd_add, Prod.smul_snd, smul_eq_mul]; ring)
    rcases this with h | h
    · -- in the triangle p a e: cut at b
      by_cases heb : e = b
      · subst heb
        exact ⟨(a', e), by simp [fanPairs], h⟩
      · have he : e ∈ c :: rest := by
          rcases List.mem_cons.mp (fanPairs_mem hq).1 with h | h
          · exact absurd h heb
          · exact h
        have sb : [a', b, e].Sublist (a' :: b :: c :: rest) :=
          List.Sublist.cons_cons _ (List.Sublist.cons_cons _ (List.singleton_sublist.mpr he))
        obtain ⟨u', v', w', hu', hv', hw', hsum', hx'⟩ := h
        have := quad_cover (x := s • a' + t • (u • p + v • e + w • g)) (p := p) (a := a') (b := b) (c := e) (ct a' b (by simp))
          (ct b e ((List.Sublist.cons_cons _ (List.singleton_sublist.mpr he)).cons _)) (ct _ _ hsubae)
          (ct3 _ _ _ sb) u' v' 0 w' hu' hv' (le_refl _) hw' (by linarith) (by rw [hx']; simp)
        rcases this with h | h
        · exact ⟨(a', b), by simp [fanPairs], h⟩
        · have hmem : s • a' + t • (u • p + v • e + w • g) ∈ convexHull ℝ {y | y ∈ p :: b :: c :: rest} := by
            refine inTri_mem (convex_convexHull ℝ _) ?_ ?_ ?_ h <;> apply subset_convexHull
            · simp
            · simp
            · simp only [mem_setOf_eq, List.mem_cons] at he ⊢; tauto
          obtain ⟨q, hq, hin⟩ := fan_cover hc' hmem
          exact ⟨q, hcons q hq, hin⟩
    · exact ⟨(e, g), hcons _ hq, h⟩

/-- The fan of a convex polygon with at least three vertices is its convex hull. -/
theorem fan_eq_hull {p : Pt} {l : List Pt} (hl : 2 ≤ l.length) (hc : Conv (p :: l)) (x : Pt) :
    (∃ q ∈ fanPairs l, InTri p q.1 q.2 x) ↔ x ∈ convexHull ℝ {y | y ∈ p :: l} := by
  constructor
  · rintro ⟨q, hq, h⟩
    refine inTri_mem (convex_convexHull ℝ _) ?_ ?_ ?_ h <;> apply subset_convexHull
    · simp
    · simp [(fanPairs_mem hq).1]
    · simp [(fanPairs_mem hq).2]
  · intro hx
    match l, hl with
    | a :: b :: rest, _ => exact fan_cover hc hx

/-! ### Sizes -/

/-- Number of sign changes (`≥ 0` against `< 0`) along an open chain. -/
def sc (g : Aff) : List Pt → Nat
  | a :: b :: l => (if (0 ≤ g.ev a ↔ 0 ≤ g.ev b) then 0 else 1) + sc g (b :: l)
  | _ => 0

open Classical in
theorem sc_cons_le (g : Aff) (u b : Pt) (l : List Pt) : sc g (u :: l) ≤ sc g (u :: b :: l) := by
  cases l with
  | nil => simp [sc]
  | cons c l =>
    simp only [sc]
    by_cases h1 : 0 ≤ g.ev u <;> by_cases h2 : 0 ≤ g.ev b <;> by_cases h3 : 0 ≤ g.ev c <;> simp [h1, h2, h3] <;> omega

theorem ev_lerp_sign {g : Aff} {a b : Pt} {t : ℝ} (h0 : 0 ≤ t) (h1 : t ≤ 1) :
    ((0 ≤ g.ev a ∧ 0 ≤ g.ev b) → 0 ≤ g.ev (lerpP a b t)) ∧ ((¬ 0 ≤ g.ev a ∧ ¬ 0 ≤ g.ev b) → ¬ 0 ≤ g.ev (lerpP a b t)) := by
  rw [ev_lerp]
  constructor
  · rintro ⟨h2, h3⟩
    nlinarith [mul_nonneg h0 h3, mul_nonneg (by linarith : (0:ℝ) ≤ 1 - t) h2]
  · rintro ⟨h2, h3⟩ h4
    push Not at h2 h3
    rcases h0.eq_or_lt with rfl | h0
    · linarith
    · nlinarith [mul_neg_of_pos_of_neg h0 h3, mul_nonpos_of_nonneg_of_nonpos (by linarith : (0:ℝ) ≤ 1 - t) h2.le]

theorem sc_chain_le (f g : Aff) : ∀ (l : List Pt) (u b : Pt), sc g (u :: chain f (b :: l)) ≤ sc g (u :: b :: l)
  | [], u, b => by simp [chain, sc]
  | c :: l, u, b => by
    rw [chain]
    rcases step_shape f b c with h | ⟨t, h0, h1, h⟩ | ⟨t, h0, h1, h⟩
    · rw [h]
      exact (sc_chain_le f g l u c).trans (sc_cons_le g u b (c :: l))
    · rw [h]
      have ih := sc_chain_le f g l (lerpP b c t) c
      have hs := ev_lerp_sign (g := g) (a := b) (b := c) h0 h1
      show sc g (u :: lerpP b c t :: chain f (c :: l)) ≤ _
      simp only [sc] at ih ⊢
      by_cases k1 : 0 ≤ g.ev u <;> by_cases k2 : 0 ≤ g.ev b <;> by_cases k3 : 0 ≤ g.ev c <;>
        by_cases k4 : 0 ≤ g.ev (lerpP b c t) <;> simp [k1, k2, k3, k4] at ih hs ⊢ <;> omega
    · rw [h]
      have ih := sc_chain_le f g l c c
      have hs := ev_lerp_sign (g := g) (a := b) (b := c) h0 h1
      show sc g (u :: lerpP b c t :: c :: chain f (c :: l)) ≤ _
      simp only [sc] at ih ⊢
      by_cases k1 : 0 ≤ g.ev u <;> by_cases k2 : 0 ≤ g.ev b <;> by_cases k3 : 0 ≤ g.ev c <;>
        by_cases k4 : 0 ≤ g.ev (lerpP b c t) <;> simp [k1, k2, k3, k4] at ih hs ⊢ <;> omega

/-- The parity of the number of sign changes is determined by the ends. -/
theorem sc_parity (g : Aff) : ∀ (l : List Pt) (a z : Pt),
    sc g (a :: l ++ [z]) % 2 = if (0 ≤ g.ev a ↔ 0 ≤ g.ev z) then 0 else 1
  | [], a, z => by
    simp only [List.cons_append, List.nil_append, sc]; split_ifs <;> simp
  | b :: l, a, z => by
    have ih := sc_parity g l b z
    have e : sc g (a :: (b :: l) ++ [z]) = (if (0 ≤ g.ev a ↔ 0 ≤ g.ev b) then 0 else 1) + sc g (b :: l ++ [z]) := rfl
    rw [e]
    by_cases k1 : 0 ≤ g.ev a <;> by_cases k2 : 0 ≤ g.ev b <;> by_cases k3 : 0 ≤ g.ev z <;>
      simp [k1, k2, k3] at ih ⊢ <;> omega

/-- Sign changes around a closed polygon. -/
def cyc (g : Aff) : List Pt → Nat
  | [] => 0
  | p :: l => sc g (p :: l ++ [p])

/-- Every line meets the boundary at most twice. -/
def Simple (l : List Pt) : Prop := ∀ g, cyc g l ≤ 2

theorem cyc_even (g : Aff) (l : List Pt) : cyc g l % 2 = 0 := by
  cases l with
  | nil => rfl
  | cons p l => show sc g (p :: l ++ [p]) % 2 = 0; rw [sc_parity]; simp

theorem sc_append_last (g : Aff) : ∀ (l : List Pt) (y z : Pt),
    sc g (l ++ [y, z]) = sc g (l ++ [y]) + (if (0 ≤ g.ev y ↔ 0 ≤ g.ev z) then 0 else 1)
  | [], y, z => by simp [sc]
  | [a], y, z => by simp [sc]
  | a :: b :: l, y, z => by
    have ih := sc_append_last g (b :: l) y z
    simp only [List.cons_append, sc] at ih ⊢
    rw [ih]; omega

theorem cyc_eq_last (g : Aff) (l : List Pt) (y : Pt) : cyc g (l ++ [y]) = sc g (y :: (l ++ [y])) := by
  cases l with
  | nil => rfl
  | cons p l =>
    show sc g (p :: (l ++ [y]) ++ [p]) = sc g (y :: p :: (l ++ [y]))
    rw [show p :: (l ++ [y]) ++ [p] = (p :: l) ++ [y, p] by simp, sc_append_last]
    have e : sc g (y :: p :: (l ++ [y])) = (if (0 ≤ g.ev y ↔ 0 ≤ g.ev p) then 0 else 1) + sc g (p :: (l ++ [y])) := rfl
    rw [e, Nat.add_comm]; rfl

theorem clip_simple {f : Aff} {l : List Pt} (h : Simple l) : Simple (clipP f l) := by
  intro g
  cases l with
  | nil => simp [clipP, cyc]
  | cons p l =>
    rcases List.eq_nil_or_concat (clipP f (p :: l)) with h0 | ⟨m, y, hm⟩
    · rw [h0]; simp [cyc]
    · have h1 : cyc g (clipP f (p :: l)) ≤ 1 + cyc g (p :: l) := by
        rw [hm, List.concat_eq_append, cyc_eq_last, ← List.concat_eq_append]
        have hm' : m.concat y = chain f (p :: (l ++ [p])) := hm.symm
        rw [hm']
        refine (sc_chain_le f g (l ++ [p]) y p).trans ?_
        show (if (0 ≤ g.ev y ↔ 0 ≤ g.ev p) then 0 else 1) + sc g (p :: (l ++ [p])) ≤ 1 + sc g (p :: l ++ [p])
        have : sc g (p :: (l ++ [p])) = sc g (p :: l ++ [p]) := rfl
        rw [this]; split_ifs <;> omega
      have h2 := cyc_even g (clipP f (p :: l))
      have h3 := h g
      have h4 := cyc_even g (p :: l)
      omega

theorem triangle_simple (a b c : Pt) : Simple [a, b, c] := by
  intro g
  have h := cyc_even g [a, b, c]
  have : cyc g [a, b, c] ≤ 3 := by
    simp only [cyc, sc, List.cons_append, List.nil_append]
    split_ifs <;> omega
  omega

/-- The number of emitted points: one per inside end point, plus one per sign change. -/
theorem chain_length (f : Aff) : ∀ (L : List Pt) (a : Pt),
    (chain f (a :: L)).length = (L.countP (fun x => decide (0 ≤ f.ev x))) + sc f (a :: L)
  | [], a => by simp [chain, sc]
  | b :: l, a => by
    rw [chain, List.length_append, chain_length f l b, List.countP_cons]
    simp only [sc, stepP]
    by_cases k1 : 0 ≤ f.ev a <;> by_cases k2 : 0 ≤ f.ev b <;> simp [k1, k2] <;> omega

theorem sc_zero_inside (f : Aff) : ∀ (L : List Pt) (a : Pt), sc f (a :: L) = 0 → ∀ x ∈ L, (0 ≤ f.ev x ↔ 0 ≤ f.ev a)
  | [], _, _, x, hx => by simp at hx
  | b :: l, a, h, x, hx => by
    simp only [sc] at h
    have h1 : (0 ≤ f.ev a ↔ 0 ≤ f.ev b) := by by_contra h2; simp [h2] at h
    have h2 : sc f (b :: l) = 0 := by omega
    rcases List.mem_cons.mp hx with rfl | hx
    · exact h1.symm
    · exact (sc_zero_inside f l b h2 x hx).trans h1.symm

theorem clip_length {f : Aff} {l : List Pt} (h : Simple l) (h3 : 3 ≤ l.length) :
    (clipP f l).length ≤ l.length + 1 ∧ (clipP f l = [] ∨ 3 ≤ (clipP f l).length) := by
  cases l with
  | nil => simp at h3
  | cons p l =>
    have hlen : (clipP f (p :: l)).length = (l ++ [p]).countP (fun x => decide (0 ≤ f.ev x)) + cyc f (p :: l) :=
      chain_length f (l ++ [p]) p
    have hcount : (l ++ [p]).countP (fun x => decide (0 ≤ f.ev x)) ≤ l.length + 1 := by
      have := List.countP_le_length (p := fun x => decide (0 ≤ f.ev x)) (l := l ++ [p])
      simpa using this
    have hc2 := h f
    have hce := cyc_even f (p :: l)
    have hl : (p :: l).length = l.length + 1 := rfl
    have hcases : cyc f (p :: l) = 0 ∨ cyc f (p :: l) = 2 := by omega
    rcases hcases with h0 | h2
    · have hin := sc_zero_inside f (l ++ [p]) p h0
      refine ⟨by omega, ?_⟩
      by_cases hp : 0 ≤ f.ev p
      · right
        have : (l ++ [p]).countP (fun x => decide (0 ≤ f.ev x)) = (l ++ [p]).length := by
          rw [List.countP_eq_length]; intro x hx; simp [(hin x hx).mpr hp]
        rw [hlen, this]; simp only [List.length_append, List.length_singleton]; omega
      · left
        rw [← List.length_eq_zero_iff, hlen, h0]
        rw [List.countP_eq_zero.mpr]
        intro x hx; simp only [decide_eq_true_eq]; exact fun h => hp ((hin x hx).mp h)
    · -- some vertex is inside and some is outside
      have hsome : 0 < (l ++ [p]).countP (fun x => decide (0 ≤ f.ev x)) ∧
          (l ++ [p]).countP (fun x => decide (0 ≤ f.ev x)) < (l ++ [p]).length := by
        have hz : ∀ (L : List Pt) (a : Pt), sc f (a :: L) ≠ 0 → ∃ x ∈ a :: L, ∃ y ∈ a :: L, 0 ≤ f.ev x ∧ ¬ 0 ≤ f.ev y := by
          intro L
          induction L with
          | nil => intro a h; simp [sc] at h
          | cons b l ih =>
            intro a h
            simp only [sc] at h
            by_cases hab : (0 ≤ f.ev a ↔ 0 ≤ f.ev b)
            · have : sc f (b :: l) ≠ 0 := by intro h0; simp [hab, h0] at h
              obtain ⟨x, hx, y, hy, h1, h2⟩ := ih b this
              exact ⟨x, List.mem_cons_of_mem _ hx, y, List.mem_cons_of_mem _ hy, h1, h2⟩
            · by_cases ha : 0 ≤ f.ev a
              · exact ⟨a, by simp, b, by simp, ha, fun hb => hab ⟨fun _ => hb, fun _ => ha⟩⟩
              · refine ⟨b, by simp, a, by simp, ?_, ha⟩
                by_contra hb; exact hab ⟨fun h => absurd h ha, fun h => absurd h hb⟩
        have h2' : sc f (p :: (l ++ [p])) ≠ 0 := by
          have : sc f (p :: (l ++ [p])) = 2 := h2
          omega
        obtain ⟨x, hx, y, hy, h1, h2⟩ := hz (l ++ [p]) p h2'
        have mem : ∀ z, z ∈ p :: (l ++ [p]) → z ∈ l ++ [p] := by
          intro z hz; simp only [List.mem_cons, List.mem_append, List.not_mem_nil, or_false] at hz ⊢; tauto
        constructor
        · rw [List.countP_pos_iff]; exact ⟨x, mem x hx, by simpa using h1⟩
        · rcases lt_or_eq_of_le (List.countP_le_length (p := fun x => decide (0 ≤ f.ev x)) (l := l ++ [p])) with h | h
          · exact h
          · rw [List.countP_eq_length] at h
            have := h y (mem y hy); simp only [decide_eq_true_eq] at this; exact absurd this h2
      have hL : (l ++ [p]).length = l.length + 1 := by simp
      exact ⟨by omega, Or.inr (by omega)⟩

/-! ### The fan does not overlap itself -/

theorem fan_disjoint {p : Pt} {l : List Pt} (hc : Conv (p :: l)) {a b c d x : Pt} (hs : [b, c, d].Sublist l)
    (hab : 0 < orient p a b) {u v w u' v' w' : ℝ} (hv : 0 < v) (hv' : 0 ≤ v') (hw' : 0 ≤ w')
    (h1 : u + v + w = 1) (h1' : u' + v' + w' = 1)
    (hx : x = u • p + v • a + w • b) (hx' : x = u' • p + v' • c + w' • d) : False := by
  have hbc : 0 ≤ orient p b c := conv_triple (conv_sublist
    ((List.Sublist.trans (by simp : [b, c].Sublist [b, c, d]) hs).cons_cons p) hc)
  have hbd : 0 ≤ orient p b d := conv_triple (conv_sublist
    ((List.Sublist.trans (by simp : [b, d].Sublist [b, c, d]) hs).cons_cons p) hc)
  have e1 : orient p x b = v * orient p a b := by
    rw [hx]; simp only [orient, Prod.fst_add, Prod.snd_add, Prod.smul_fst, Prod.smul_snd, smul_eq_mul]
    have : u = 1 - v - w := by linarith
    subst this; ring
  have e2 : orient p x b = -(v' * orient p b c + w' * orient p b d) := by
    rw [hx']; simp only [orient, Prod.fst_add, Prod.snd_add, Prod.smul_fst, Prod.smul_snd, smul_eq_mul]
    have : u' = 1 - v' - w' := by linarith
    subst this; ring
  have := mul_pos hv hab
  have := mul_nonneg hv' hbc
  have := mul_nonneg hw' hbd
  linarith

end
end Huira.Frustum
