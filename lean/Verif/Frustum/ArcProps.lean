import Verif.Frustum.ArcModel
import Verif.Arc.CrossProps
set_option linter.unusedSimpArgs false
/-!
# C46: visible intervals
-/
namespace Huira.ArcClip
noncomputable section
open Classical

/-- Sorted and non-overlapping. -/
def Good (l : List (ℝ × ℝ)) : Prop := (∀ p ∈ l, p.1 ≤ p.2) ∧ l.Pairwise (fun p q => p.2 ≤ q.1)

/-- `t` is strictly inside one of the intervals. -/
def Inside (l : List (ℝ × ℝ)) (t : ℝ) : Prop := ∃ p ∈ l, p.1 < t ∧ t < p.2

theorem good_cons {p : ℝ × ℝ} {l : List (ℝ × ℝ)} : Good (p :: l) ↔ p.1 ≤ p.2 ∧ (∀ q ∈ l, p.2 ≤ q.1) ∧ Good l := by
  simp only [Good, List.pairwise_cons, List.mem_cons, forall_eq_or_imp]; tauto

theorem inside_cons {p : ℝ × ℝ} {l : List (ℝ × ℝ)} {t : ℝ} :
    Inside (p :: l) t ↔ (p.1 < t ∧ t < p.2) ∨ Inside l t := by simp [Inside]

theorem inside_append {l m : List (ℝ × ℝ)} {t : ℝ} : Inside (l ++ m) t ↔ Inside l t ∨ Inside m t := by
  simp only [Inside, List.mem_append]
  constructor
  · rintro ⟨p, h | h, x⟩
    · exact Or.inl ⟨p, h, x⟩
    · exact Or.inr ⟨p, h, x⟩
  · rintro (⟨p, h, x⟩ | ⟨p, h, x⟩)
    · exact ⟨p, Or.inl h, x⟩
    · exact ⟨p, Or.inr h, x⟩

theorem inside_nil {t : ℝ} : ¬ Inside [] t := by simp [Inside]

/-- Everything in the result lies in both inputs' hulls, from the larger of the two first starts on. -/
theorem intersect_low : ∀ (a b : List (ℝ × ℝ)) (m : ℝ), (∀ p ∈ a, m ≤ p.1) ∨ (∀ q ∈ b, m ≤ q.1) →
    ∀ r ∈ intersect a b, m ≤ r.1
  | [], _, _, _ => by simp [intersect]
  | _ :: _, [], _, _ => by simp [intersect]
  | x :: a, y :: b, m, h => by
    rw [intersect]
    intro r hr
    rw [List.mem_append] at hr
    rcases hr with hr | hr
    · split_ifs at hr
      · rw [List.mem_singleton] at hr
        subst hr
        rcases h with h | h
        · exact (h x (by simp)).trans (le_max_left _ _)
        · exact (h y (by simp)).trans (le_max_right _ _)
      · simp at hr
    · split_ifs at hr
      · exact intersect_low a (y :: b) m (h.imp (fun h p hp => h p (by simp [hp])) id) r hr
      · exact intersect_low (x :: a) b m (h.imp id (fun h p hp => h p (by simp [hp]))) r hr
termination_by a b => a.length + b.length

/-- **C46 (intersection).** Intersecting two sorted lists of non-overlapping intervals gives a sorted list of
non-empty, non-overlapping intervals containing exactly the times inside both. -/
theorem C46_intersect : ∀ (a b : List (ℝ × ℝ)), Good a → Good b →
    Good (intersect a b) ∧ (∀ r ∈ intersect a b, r.1 < r.2) ∧
      ∀ t, Inside (intersect a b) t ↔ Inside a t ∧ Inside b t
  | [], b, _, _ => by simp [intersect, Good, Inside]
  | x :: a, [], _, _ => by simp [intersect, Good, Inside]
  | x :: a, y :: b, ha, hb => by
    rw [good_cons] at ha hb
    rw [intersect]
    -- the remaining part
    have hrest : ∃ R, (if x.2 < y.2 then intersect a (y :: b) else intersect (x :: a) b) = R ∧
        Good R ∧ (∀ r ∈ R, r.1 < r.2) ∧ (∀ r ∈ R, min x.2 y.2 ≤ r.1) ∧
        ∀ t, (Inside (x :: a) t ∧ Inside (y :: b) t) ↔
          ((x.1 < t ∧ t < x.2) ∧ (y.1 < t ∧ t < y.2)) ∨ Inside R t := by
      split_ifs with h
      · obtain ⟨g, s, i⟩ := C46_intersect a (y :: b) ha.2.2 (good_cons.2 hb)
        refine ⟨_, rfl, g, s, ?_, ?_⟩
        · rw [min_eq_left h.le]
          exact intersect_low a (y :: b) x.2 (Or.inl ha.2.1)
        · intro t
          rw [i t, inside_cons, inside_cons]
          constructor
          · rintro ⟨h1 | h1, h2 | h2⟩
            · exact Or.inl ⟨h1, h2⟩
            · obtain ⟨q, hq, hq1, hq2⟩ := h2
              have := hb.2.1 q hq
              exfalso; linarith
            · exact Or.inr ⟨h1, Or.inl h2⟩
            · exact Or.inr ⟨h1, Or.inr h2⟩
          · rintro (⟨h1, h2⟩ | ⟨h1, h2⟩)
            · exact ⟨Or.inl h1, Or.inl h2⟩
            · exact ⟨Or.inr h1, h2⟩
      · push Not at h
        obtain ⟨g, s, i⟩ := C46_intersect (x :: a) b (good_cons.2 ha) hb.2.2
        refine ⟨_, rfl, g, s, ?_, ?_⟩
        · rw [min_eq_right h]
          exact intersect_low (x :: a) b y.2 (Or.inr hb.2.1)
        · intro t
          rw [i t, inside_cons, inside_cons]
          constructor
          · rintro ⟨h1 | h1, h2 | h2⟩
            · exact Or.inl ⟨h1, h2⟩
            · exact Or.inr ⟨Or.inl h1, h2⟩
            · obtain ⟨q, hq, hq1, hq2⟩ := h1
              have := ha.2.1 q hq
              exfalso; linarith
            · exact Or.inr ⟨Or.inr h1, h2⟩
          · rintro (⟨h1, h2⟩ | ⟨h1, h2⟩)
            · exact ⟨Or.inl h1, Or.inl h2⟩
            · exact ⟨h1, Or.inr h2⟩
    obtain ⟨R, hR, g, s, lo, i⟩ := hrest
    rw [hR]
    split_ifs with hlt
    · refine ⟨good_cons.2 ⟨hlt.le, lo, g⟩, ?_, ?_⟩
      · intro r hr
        rcases List.mem_cons.1 hr with rfl | hr
        · exact hlt
        · exact s r hr
      · intro t
        rw [i t, List.singleton_append, inside_cons]
        simp only [max_lt_iff, lt_min_iff]; tauto
    · rw [List.nil_append]
      refine ⟨g, s, ?_⟩
      intro t
      rw [i t]
      constructor
      · exact Or.inr
      · rintro (⟨⟨h1, h2⟩, h3, h4⟩ | h)
        · exact absurd (lt_trans (max_lt h1 h3) (lt_min h2 h4)) hlt
        · exact h
termination_by a b => a.length + b.length

/-- Two overlapping pairs of intervals. -/
example : Good [((0 : ℝ), (1 : ℝ) / 4), (1 / 2, 1)] ∧ Good [((1 : ℝ) / 8, (3 : ℝ) / 4)] := by
  constructor <;> simp [Good] <;> norm_num

/-! ### one plane -/

/-- Consecutive pairs. -/
def pairs : List ℝ → List (ℝ × ℝ)
  | b :: b' :: rest => (b, b') :: pairs (b' :: rest)
  | _ => []

theorem addInterval_good {acc : List (ℝ × ℝ)} {b b' : ℝ} (hg : Good acc) (he : ∀ p ∈ acc, p.2 ≤ b) (hb : b ≤ b') :
    Good (addInterval acc b b') ∧ (∀ p ∈ addInterval acc b b', p.2 ≤ b') := by
  have happ : Good (acc ++ [(b, b')]) ∧ (∀ p ∈ acc ++ [(b, b')], p.2 ≤ b') := by
    refine ⟨⟨?_, ?_⟩, ?_⟩
    · intro p hp
      rcases List.mem_append.1 hp with hp | hp
      · exact hg.1 p hp
      · rw [List.mem_singleton] at hp; subst hp; exact hb
    · rw [List.pairwise_append]
      refine ⟨hg.2, by simp, ?_⟩
      intro p hp q hq
      rw [List.mem_singleton] at hq; subst hq; exact he p hp
    · intro p hp
      rcases List.mem_append.1 hp with hp | hp
      · exact (he p hp).trans hb
      · rw [List.mem_singleton] at hp; subst hp; exact le_refl _
  unfold addInterval
  cases hl : acc.getLast? with
  | none => exact happ
  | some p =>
    simp only []
    split_ifs with hm
    · have hne : acc ≠ [] := by rintro rfl; simp at hl
      have hlast : acc.getLast hne = p := by rw [List.getLast?_eq_getLast_of_ne_nil hne] at hl; exact Option.some.inj hl
      have hdec : acc = acc.dropLast ++ [p] := by rw [← hlast, List.dropLast_append_getLast]
      have hpm : p ∈ acc := by rw [← hlast]; exact List.getLast_mem hne
      have hpw := hg.2
      rw [hdec, List.pairwise_append] at hpw
      refine ⟨⟨?_, ?_⟩, ?_⟩
      · intro q hq
        rcases List.mem_append.1 hq with hq | hq
        · exact hg.1 q (List.mem_of_mem_dropLast hq)
        · rw [List.mem_singleton] at hq; subst hq
          have := hg.1 p hpm; have := he p hpm; simp only; linarith
      · rw [List.pairwise_append]
        refine ⟨hpw.1, by simp, ?_⟩
        intro q hq r hr
        rw [List.mem_singleton] at hr; subst hr
        exact hpw.2.2 q hq p (by simp)
      · intro q hq
        rcases List.mem_append.1 hq with hq | hq
        · exact (he q (List.mem_of_mem_dropLast hq)).trans hb
        · rw [List.mem_singleton] at hq; subst hq; exact le_refl _
    · exact happ

theorem addInterval_inside {acc : List (ℝ × ℝ)} {b b' t : ℝ} (hg : Good acc) (he : ∀ p ∈ acc, p.2 ≤ b)
    (hb : b ≤ b') (ht : eps6 < |t - b|) :
    Inside (addInterval acc b b') t ↔ Inside acc t ∨ (b < t ∧ t < b') := by
  have happ : Inside (acc ++ [(b, b')]) t ↔ Inside acc t ∨ (b < t ∧ t < b') := by
    rw [inside_append, inside_cons]; simp [inside_nil]
  unfold addInterval
  cases hl : acc.getLast? with
  | none => exact happ
  | some p =>
    simp only []
    split_ifs with hm
    · have hne : acc ≠ [] := by rintro rfl; simp at hl
      have hlast : acc.getLast hne = p := by rw [List.getLast?_eq_getLast_of_ne_nil hne] at hl; exact Option.some.inj hl
      have hdec : acc = acc.dropLast ++ [p] := by rw [← hlast, List.dropLast_append_getLast]
      have hpm : p ∈ acc := by rw [← hlast]; exact List.getLast_mem hne
      have h1 := hg.1 p hpm
      have h2 := he p hpm
      rw [abs_lt] at hm
      conv_rhs => rw [hdec]
      rw [inside_append, inside_append, inside_cons, inside_cons]
      have : (p.1 < t ∧ t < b') ↔ (p.1 < t ∧ t < p.2) ∨ (b < t ∧ t < b') := by
        rcases lt_abs.1 ht with h | h
        · constructor
          · rintro ⟨x, y⟩; right; constructor <;> [(have : 0 < eps6 := by norm_num [eps6]); skip] <;> linarith
          · rintro (⟨x, y⟩ | ⟨x, y⟩)
            · have : 0 < eps6 := by norm_num [eps6]
              exfalso; linarith
            · exact ⟨by linarith, y⟩
        · constructor
          · rintro ⟨x, y⟩; left; constructor <;> linarith
          · rintro (⟨x, y⟩ | ⟨x, y⟩)
            · exact ⟨x, by linarith⟩
            · exact ⟨by linarith, y⟩
      simp only [inside_nil, or_false]
      rw [this]; tauto
    · exact happ

theorem scan_spec (g : ℝ → ℝ) : ∀ (bs : List ℝ) (acc : List (ℝ × ℝ)), bs.Pairwise (· ≤ ·) → Good acc →
    (∀ b ∈ bs, ∀ p ∈ acc, p.2 ≤ b) →
    Good (scan g bs acc) ∧ ∀ t, (∀ b ∈ bs, eps6 < |t - b|) →
      (Inside (scan g bs acc) t ↔ Inside acc t ∨ ∃ p ∈ pairs bs, (p.1 < t ∧ t < p.2) ∧ 0 ≤ g ((p.1 + p.2) / 2))
  | [], acc, _, hg, _ => by simp [scan, pairs, hg]
  | [b], acc, _, hg, _ => by simp [scan, pairs, hg]
  | b :: b' :: rest, acc, hs, hg, he => by
    rw [scan]
    have hs' := hs
    rw [List.pairwise_cons] at hs
    have hbb : b ≤ b' := hs.1 b' (by simp)
    have hacc' : ∃ A, (if 0 ≤ g ((b + b') / 2) then addInterval acc b b' else acc) = A ∧ Good A ∧
        (∀ p ∈ A, p.2 ≤ b') ∧ ∀ t, eps6 < |t - b| →
          (Inside A t ↔ Inside acc t ∨ ((b < t ∧ t < b') ∧ 0 ≤ g ((b + b') / 2))) := by
      split_ifs with h
      · obtain ⟨x, y⟩ := addInterval_good hg (he b (by simp)) hbb
        refine ⟨_, rfl, x, y, ?_⟩
        intro t ht
        rw [addInterval_inside hg (he b (by simp)) hbb ht]; simp [h]
      · exact ⟨_, rfl, hg, fun p hp => he b' (by simp) p hp, fun t _ => by simp [h]⟩
    obtain ⟨A, hA, gA, eA, iA⟩ := hacc'
    rw [hA]
    have ih := scan_spec g (b' :: rest) A hs.2 gA (by
      intro c hc p hp
      have : b' ≤ c := by
        rcases List.mem_cons.1 hc with rfl | hc
        · exact le_refl _
        · exact (List.pairwise_cons.1 hs.2).1 c hc
      exact (eA p hp).trans this)
    refine ⟨ih.1, ?_⟩
    intro t ht
    rw [ih.2 t (fun c hc => ht c (by simp [List.mem_cons.1 hc])), iA t (ht b (by simp))]
    simp only [pairs, List.mem_cons, exists_eq_or_imp]
    tauto

/-- Locating a time between consecutive boundaries. -/
theorem exists_pair : ∀ (bs : List ℝ) (t : ℝ), bs.Pairwise (· ≤ ·) → (∀ b ∈ bs, t ≠ b) →
    (∃ b ∈ bs, b < t) → (∃ b ∈ bs, t < b) → ∃ p ∈ pairs bs, p.1 < t ∧ t < p.2
  | [], _, _, _, h, _ => by simp at h
  | [b], t, _, _, h, h' => by simp at h h'; linarith
  | b :: b' :: rest, t, hs, hne, h, h' => by
    rw [List.pairwise_cons] at hs
    have hbt : b < t := by
      obtain ⟨c, hc, hct⟩ := h
      rcases List.mem_cons.1 hc with rfl | hc
      · exact hct
      · exact (hs.1 c hc).trans_lt hct
    rcases lt_or_gt_of_ne (hne b' (by simp)) with hlt | hgt
    · exact ⟨(b, b'), by simp [pairs], hbt, hlt⟩
    · obtain ⟨p, hp, x⟩ := exists_pair (b' :: rest) t hs.2 (fun c hc => hne c (by simp [List.mem_cons.1 hc]))
        ⟨b', by simp, hgt⟩ (by
          obtain ⟨c, hc, htc⟩ := h'
          rcases List.mem_cons.1 hc with rfl | hc
          · linarith
          · exact ⟨c, hc, htc⟩)
      exact ⟨p, by simp [pairs, hp], x⟩

/-- The two boundaries of a consecutive pair are in the list and nothing is strictly between them. -/
theorem pairs_mem : ∀ (bs : List ℝ), bs.Pairwise (· ≤ ·) → ∀ p ∈ pairs bs, p.1 ∈ bs ∧ p.2 ∈ bs ∧ p.1 ≤ p.2 ∧
    ∀ b ∈ bs, b ≤ p.1 ∨ p.2 ≤ b
  | [], _ => by simp [pairs]
  | [b], _ => by simp [pairs]
  | b :: b' :: rest, hs => by
    have hs' := List.pairwise_cons.1 hs
    intro p hp
    rw [pairs, List.mem_cons] at hp
    rcases hp with rfl | hp
    · refine ⟨by simp, by simp, hs'.1 b' (by simp), ?_⟩
      intro c hc
      rcases List.mem_cons.1 hc with rfl | hc
      · exact Or.inl (le_refl _)
      · right
        rcases List.mem_cons.1 hc with rfl | hc
        · exact le_refl _
        · exact (List.pairwise_cons.1 hs'.2).1 c hc
    · obtain ⟨h1, h2, h3, h4⟩ := pairs_mem (b' :: rest) hs'.2 p hp
      refine ⟨by simp [List.mem_cons.1 h1], by simp [List.mem_cons.1 h2], h3, ?_⟩
      intro c hc
      rcases List.mem_cons.1 hc with rfl | hc
      · exact Or.inl (hs'.1 p.1 h1)
      · exact h4 c hc

theorem boundaries_sorted {C : List ℝ} (hC : C.Pairwise (· ≤ ·)) : (boundaries C).Pairwise (· ≤ ·) := by
  have e : (0 : ℝ) < eps6 := by norm_num [eps6]
  unfold boundaries
  rw [List.pairwise_cons, List.pairwise_append]
  refine ⟨?_, hC.filter _, by simp, ?_⟩
  · intro b hb
    rcases List.mem_append.1 hb with hb | hb
    · simp only [List.mem_filter, decide_eq_true_eq] at hb; linarith
    · rw [List.mem_singleton] at hb; rw [hb]; norm_num
  · intro b hb c hc
    simp only [List.mem_filter, decide_eq_true_eq] at hb
    rw [List.mem_singleton] at hc; rw [hc]; linarith

/-- Equal sign of a continuous function without zeros between two points. -/
theorem sign_same {g : ℝ → ℝ} {s t : ℝ} (hst : s ≤ t) (hc : ContinuousOn g (Set.Icc s t))
    (hz : ∀ z ∈ Set.Icc s t, g z ≠ 0) : 0 ≤ g s ↔ 0 ≤ g t := by
  constructor
  · intro h
    by_contra hn
    push Not at hn
    obtain ⟨z, hz1, hz2⟩ := intermediate_value_Icc' hst hc ⟨hn.le, h⟩
    exact hz z hz1 hz2
  · intro h
    by_contra hn
    push Not at hn
    obtain ⟨z, hz1, hz2⟩ := intermediate_value_Icc hst hc ⟨hn.le, h⟩
    exact hz z hz1 hz2

/-- The intervals of one plane, for any sorted list of crossings that misses no zero by more than `δ`: sorted,
non-overlapping, and exact at every time farther than `δ + 1e-6` from the crossings and the ends of the exposure. -/
theorem plane_spec {g : ℝ → ℝ} {C : List ℝ} {δ : ℝ} (hδ : 0 ≤ δ) (hg : ContinuousOn g (Set.Icc 0 1))
    (hC : C.Pairwise (· ≤ ·)) (hfind : ∀ z, 0 ≤ z → z ≤ 1 → g z = 0 → ∃ c ∈ C, |z - c| ≤ δ) :
    Good (scan g (boundaries C) []) ∧ ∀ t, δ + eps6 < t → t < 1 - (δ + eps6) → (∀ c ∈ C, δ + eps6 < |t - c|) →
      (Inside (scan g (boundaries C) []) t ↔ 0 ≤ g t) := by
  have he : (0 : ℝ) < eps6 := by norm_num [eps6]
  have hs := boundaries_sorted hC
  obtain ⟨h1, h2⟩ := scan_spec g (boundaries C) [] hs ⟨by simp, by simp⟩ (by simp)
  refine ⟨h1, ?_⟩
  intro t t0 t1 tc
  have hfar : ∀ b ∈ boundaries C, δ + eps6 < |t - b| := by
    intro b hb
    unfold boundaries at hb
    rcases List.mem_cons.1 hb with rfl | hb
    · rw [sub_zero, abs_of_pos (by linarith)]; exact t0
    · rcases List.mem_append.1 hb with hb | hb
      · exact tc b (List.mem_of_mem_filter hb)
      · rw [List.mem_singleton] at hb; subst hb
        rw [abs_of_neg (by linarith)]; linarith
  rw [h2 t (fun b hb => by have := hfar b hb; linarith)]
  -- the sign at `t` is the sign at the middle of its pair
  have hsign : ∀ p ∈ pairs (boundaries C), p.1 < t → t < p.2 → (0 ≤ g ((p.1 + p.2) / 2) ↔ 0 ≤ g t) := by
    intro p hp hp1 hp2
    obtain ⟨m1, m2, m3, m4⟩ := pairs_mem _ hs p hp
    have f1 := hfar p.1 m1
    have f2 := hfar p.2 m2
    rw [abs_of_pos (by linarith)] at f1
    rw [abs_of_neg (by linarith)] at f2
    have hp01 : ∀ b ∈ boundaries C, 0 ≤ b ∧ b ≤ 1 := by
      intro b hb
      unfold boundaries at hb
      rcases List.mem_cons.1 hb with rfl | hb
      · norm_num
      · rcases List.mem_append.1 hb with hb | hb
        · simp only [List.mem_filter, decide_eq_true_eq] at hb
          exact ⟨by linarith, by linarith⟩
        · rw [List.mem_singleton] at hb; subst hb; norm_num
    have b1 := hp01 _ m1
    have b2 := hp01 _ m2
    have hnz : ∀ z, p.1 + (δ + eps6) < z → z < p.2 - (δ + eps6) → g z ≠ 0 := by
      intro z hz1 hz2 hz
      obtain ⟨c, hc, hcz⟩ := hfind z (by linarith) (by linarith) hz
      rw [abs_le] at hcz
      by_cases hk : eps6 < c ∧ c < 1 - eps6
      · have : c ∈ boundaries C := by
          unfold boundaries
          refine List.mem_cons_of_mem _ (List.mem_append_left _ ?_)
          simp [List.mem_filter, hc, hk]
        rcases m4 c this with h | h <;> linarith
      · by_cases hk1 : eps6 < c
        · have : 1 - eps6 ≤ c := by
            by_contra hcon; exact hk ⟨hk1, not_le.1 hcon⟩
          linarith
        · linarith
    rcases le_total ((p.1 + p.2) / 2) t with h | h
    · exact sign_same h (hg.mono fun z hz => ⟨by linarith [hz.1], by linarith [hz.2]⟩)
        (fun z hz => hnz z (by linarith [hz.1]) (by linarith [hz.2]))
    · exact (sign_same h (hg.mono fun z hz => ⟨by linarith [hz.1], by linarith [hz.2]⟩)
        (fun z hz => hnz z (by linarith [hz.1]) (by linarith [hz.2]))).symm
  constructor
  · rintro (h | ⟨p, hp, ⟨x, y⟩, hm⟩)
    · exact absurd h inside_nil
    · exact (hsign p hp x y).1 hm
  · intro hgt
    right
    obtain ⟨p, hp, x, y⟩ := exists_pair (boundaries C) t hs
      (fun b hb e => by have := hfar b hb; rw [e, sub_self, abs_zero] at this; linarith)
      ⟨0, by simp [boundaries], by linarith⟩ ⟨1, by simp [boundaries], by linarith⟩
    exact ⟨p, hp, ⟨x, y⟩, (hsign p hp x y).2 hgt⟩

/-! ### all planes -/

theorem gap_continuous (a : Arc.TArc) (nrm : V3) : ContinuousOn (Arc.gap a nrm) (Set.Icc 0 1) := by
  have h : ∀ comp : V3 → ℝ, (comp = V3.x ∨ comp = V3.y ∨ comp = V3.z) →
      ContinuousOn (fun t => comp (Arc.evaluate a t)) (Set.Icc 0 1) := by
    intro comp hcomp
    obtain ⟨Q, hQ, e⟩ := Arc.C47_smooth a comp hcomp
    exact (hQ.continuous.continuousOn).congr e
  have hx := h V3.x (by simp)
  have hy := h V3.y (by simp)
  have hz := h V3.z (by simp)
  have e : Arc.gap a nrm = fun t => nrm.x * (Arc.evaluate a t).x + nrm.y * (Arc.evaluate a t).y +
      nrm.z * (Arc.evaluate a t).z := by funext t; simp [Arc.gap, V3.dot]
  rw [e]
  exact ((continuousOn_const.mul hx).add (continuousOn_const.mul hy)).add (continuousOn_const.mul hz)

theorem clipLoop_spec (a : Arc.TArc) {δ : ℝ} (hδ : 0 ≤ δ) : ∀ (ns : List V3) (r : List (ℝ × ℝ)), Good r →
    (∀ n ∈ ns, (Arc.planeCrossings a n).Pairwise (· ≤ ·) ∧
      ∀ z, 0 ≤ z → z ≤ 1 → Arc.gap a n z = 0 → ∃ c ∈ Arc.planeCrossings a n, |z - c| ≤ δ) →
    Good (clipLoop a ns r) ∧ (∀ t, δ + eps6 < t → t < 1 - (δ + eps6) →
      (∀ n ∈ ns, ∀ c ∈ Arc.planeCrossings a n, δ + eps6 < |t - c|) →
      (Inside (clipLoop a ns r) t ↔ Inside r t ∧ ∀ n ∈ ns, 0 ≤ Arc.gap a n t))
  | [], r, hr, _ => by simp [clipLoop, hr]
  | n :: ns, r, hr, hf => by
    obtain ⟨p1, p2⟩ := plane_spec hδ (gap_continuous a n) (hf n (by simp)).1 (hf n (by simp)).2
    change Good (planeIntervals a n) at p1
    have p2' : ∀ t, δ + eps6 < t → t < 1 - (δ + eps6) → (∀ c ∈ Arc.planeCrossings a n, δ + eps6 < |t - c|) →
      (Inside (planeIntervals a n) t ↔ 0 ≤ Arc.gap a n t) := p2
    obtain ⟨i1, _, i2⟩ := C46_intersect r (planeIntervals a n) hr p1
    rw [clipLoop]
    split_ifs with hnil
    · refine ⟨⟨by simp, by simp⟩, ?_⟩
      intro t t0 t1 tc
      constructor
      · intro h; exact absurd h inside_nil
      · rintro ⟨h1, h2⟩
        exfalso
        have : Inside (intersect r (planeIntervals a n)) t :=
          (i2 t).2 ⟨h1, (p2' t t0 t1 (tc n (by simp))).2 (h2 n (by simp))⟩
        rw [hnil] at this
        exact inside_nil this
    · obtain ⟨g, s⟩ := clipLoop_spec a hδ ns _ i1 (fun m hm => hf m (by simp [hm]))
      refine ⟨g, ?_⟩
      intro t t0 t1 tc
      rw [s t t0 t1 (fun m hm => tc m (by simp [hm])), i2 t, p2' t t0 t1 (tc n (by simp))]
      simp only [List.mem_cons, forall_eq_or_imp]; tauto

/-- Full property (with a tolerance of a thousandth of the exposure): the visible intervals of every trajectory that
stays in none of the planes are sorted and disjoint and contain exactly the times at which it is inside all planes. -/
def C46_full : Prop := ∀ (samples : List V3) (a : Arc.TArc) (normals : List V3), Arc.mk? samples = some a →
  Good (clipArc normals a) ∧ ∀ t, 1 / 1000 < t → t < 1 - 1 / 1000 →
    (∀ n ∈ normals, ∀ z, 0 ≤ z → z ≤ 1 → Arc.gap a n z = 0 → 1 / 1000 < |t - z|) →
    (Inside (clipArc normals a) t ↔ ∀ n ∈ normals, 0 ≤ Arc.gap a n t)

/-- **C46 (given the crossings).** For any number of planes: whenever the reported plane crossings are sorted and miss
no zero by more than `δ` (C48), the visible intervals are sorted, disjoint, and exact at every time farther than
`δ + 1e-6` from the reported crossings and the ends of the exposure. -/
theorem C46_clip_arc_partial (a : Arc.TArc) (normals : List V3) {δ : ℝ} (hδ : 0 ≤ δ)
    (hf : ∀ n ∈ normals, (Arc.planeCrossings a n).Pairwise (· ≤ ·) ∧
      ∀ z, 0 ≤ z → z ≤ 1 → V3.dot n (Arc.evaluate a z) = 0 → ∃ c ∈ Arc.planeCrossings a n, |z - c| ≤ δ) :
    Good (clipArc normals a) ∧ (∀ t, δ + eps6 < t → t < 1 - (δ + eps6) →
      (∀ n ∈ normals, ∀ c ∈ Arc.planeCrossings a n, δ + eps6 < |t - c|) →
      (Inside (clipArc normals a) t ↔ ∀ n ∈ normals, 0 ≤ V3.dot n (Arc.evaluate a t))) := by
  have he : (0 : ℝ) < eps6 := by norm_num [eps6]
  have h := clipLoop_spec a hδ normals [(0, 1)] ⟨by simp, by simp⟩ hf
  have e : clipArc normals a = clipLoop a normals [(0, 1)] := by
    unfold clipArc; split_ifs with hn
    · rw [hn]; rfl
    · rfl
  rw [e]
  refine ⟨h.1, ?_⟩
  intro t t0 t1 tc
  rw [h.2 t t0 t1 tc]
  have : Inside [((0 : ℝ), (1 : ℝ))] t := ⟨(0, 1), by simp, by simp only; linarith, by simp only; linarith⟩
  simp only [this, true_and]
  rfl

/-- **C46 (one to three samples).** For a constant, linear or quadratic trajectory on whose plane distances no
threshold of the root finder interferes, the visible intervals are exact, except within `2e-6` of a crossing or an end
of the exposure. -/
theorem C46_polynomial_partial (a : Arc.TArc) (h1 : 1 ≤ a.n) (h3 : a.n ≤ 3) (normals : List V3)
    (hc : ∀ n ∈ normals, ∀ c0 c1 c2, (∀ t, Arc.gap a n t = Arc.cub 0 c2 c1 c0 t) → Arc.Conditioned 0 c2 c1 c0) :
    Good (clipArc normals a) ∧ (∀ t, 2 / 1000000 < t → t < 1 - 2 / 1000000 →
      (∀ n ∈ normals, ∀ z, V3.dot n (Arc.evaluate a z) = 0 → 2 / 1000000 < |t - z|) →
      (Inside (clipArc normals a) t ↔ ∀ n ∈ normals, 0 ≤ V3.dot n (Arc.evaluate a t))) := by
  have hfin := fun n hn => Arc.C48_polynomial_partial h1 h3 n (hc n hn)
  obtain ⟨g, s⟩ := C46_clip_arc_partial a normals Arc.eps_pos.le
    (fun n hn => ⟨(hfin n hn).sorted, (hfin n hn).complete⟩)
  refine ⟨g, ?_⟩
  intro t t0 t1 tz
  refine s t (by norm_num [Arc.eps, eps6]; linarith) (by norm_num [Arc.eps, eps6]; linarith) ?_
  intro n hn c hcm
  obtain ⟨_, _, z, hz, hzc⟩ := (hfin n hn).sound c hcm
  have hfar := tz n hn z hz
  have : |t - z| ≤ |t - c| + |z - c| := by
    calc |t - z| = |(t - c) + (c - z)| := by ring_nf
      _ ≤ |t - c| + |c - z| := abs_add_le _ _
      _ = |t - c| + |z - c| := by rw [abs_sub_comm c z]
  have e1 : Arc.eps = 1 / 10000000000 := rfl
  have e2 : eps6 = 1 / 1000000 := rfl
  rw [e1] at hzc ⊢; rw [e2]; linarith

/-- A moving point crossing two planes meets the hypotheses. -/
example : let a : Arc.TArc := ⟨2, fun i => ⟨4 * i - 1, 0, 1⟩⟩
    ∀ n ∈ [(⟨1, 0, 0⟩ : V3), ⟨-1, 0, 1⟩], ∀ c0 c1 c2, (∀ t, Arc.gap a n t = Arc.cub 0 c2 c1 c0 t) →
      Arc.Conditioned 0 c2 c1 c0 := by
  intro a n hn c0 c1 c2 h
  have h0 := h 0
  have h1 := h 1
  have h2 := h (1 / 2)
  simp only [List.mem_cons, List.not_mem_nil, or_false] at hn
  rcases hn with rfl | rfl
  · simp [Arc.gap, Arc.evaluate, Arc.polyCoeffs, Arc.horner, Arc.cub, V3.dot, a] at h0 h1 h2
    have e2 : c2 = 0 := by linarith
    have e1 : c1 = 4 := by linarith
    subst e1 e2
    right; right; left; exact ⟨rfl, rfl, by norm_num [Arc.eps]⟩
  · simp [Arc.gap, Arc.evaluate, Arc.polyCoeffs, Arc.horner, Arc.cub, V3.dot, a] at h0 h1 h2
    have e2 : c2 = 0 := by linarith
    have e1 : c1 = -4 := by linarith
    subst e1 e2
    right; right; left; exact ⟨rfl, rfl, by norm_num [Arc.eps]⟩

/-- **C46 (violated).** The trajectory through x = -9, -1, 1, 9 is on the negative side of the plane x = 0 for half of
the exposure, but is reported visible for all of it. -/
theorem C46_violated : ¬ C46_full := by
  intro h
  have hs := (h [⟨-9, 0, 1⟩, ⟨-1, 0, 1⟩, ⟨1, 0, 1⟩, ⟨9, 0, 1⟩] _ [⟨1, 0, 0⟩] rfl).2
  set a : Arc.TArc := ⟨4, fun i => [(⟨-9, 0, 1⟩ : V3), ⟨-1, 0, 1⟩, ⟨1, 0, 1⟩, ⟨9, 0, 1⟩].getD i V3.zero⟩ with ha
  change ∀ t, 1 / 1000 < t → t < 1 - 1 / 1000 → (∀ n ∈ [(⟨1, 0, 0⟩ : V3)], ∀ z, 0 ≤ z → z ≤ 1 → Arc.gap a n z = 0 →
    1 / 1000 < |t - z|) → (Inside (clipArc [⟨1, 0, 0⟩] a) t ↔ ∀ n ∈ [(⟨1, 0, 0⟩ : V3)], 0 ≤ Arc.gap a n t) at hs
  have hstep : Arc.step 4 = 1 / 3 := by rw [Arc.step_eq]; norm_num
  have e4 : a.n = 4 := rfl
  have hM0 : Arc.secondDeriv 4 (fun j => (a.p j).x) 0 = 0 := Arc.secondDeriv_zero _ _
  have hM3 : Arc.secondDeriv 4 (fun j => (a.p j).x) 3 = 0 := Arc.secondDeriv_last (by norm_num) _
  have hM1 : Arc.secondDeriv 4 (fun j => (a.p j).x) 1 = -108 := by
    simp [Arc.secondDeriv, Arc.back, Arc.rhs, Arc.rhs0, Arc.diag, hstep, ha]; norm_num
  have hM2 : Arc.secondDeriv 4 (fun j => (a.p j).x) 2 = 108 := by
    simp [Arc.secondDeriv, Arc.back, Arc.rhs, Arc.rhs0, Arc.diag, hstep, ha]; norm_num
  have hd0 : Arc.dotSeg a ⟨1, 0, 0⟩ 0 = ⟨-9, 30, 0, -54⟩ := by
    simp only [Arc.dotSeg, Arc.seg, V3.dot, e4, hM0, hM1, hM2, hM3, hstep]; norm_num [ha]
  have hd1 : Arc.dotSeg a ⟨1, 0, 0⟩ 1 = ⟨-1, 12, -54, 108⟩ := by
    simp only [Arc.dotSeg, Arc.seg, V3.dot, e4, hM0, hM1, hM2, hM3, hstep]; norm_num [ha]
  have hd2 : Arc.dotSeg a ⟨1, 0, 0⟩ 2 = ⟨1, 12, 54, -54⟩ := by
    simp only [Arc.dotSeg, Arc.seg, V3.dot, e4, hM0, hM1, hM2, hM3, hstep]; norm_num [ha]
  have hgap0 : ∀ t, (0 : ℝ) ≤ t → t ≤ 1 / 3 → Arc.gap a ⟨1, 0, 0⟩ t = Arc.cub (-54) 0 30 (-9) t := by
    intro t h0 h1
    have := Arc.gap_seg (a := a) (by simp [ha]) ⟨1, 0, 0⟩ (i := 0) (by simp [ha]) (t := t)
      (by simp [Arc.knot, ha]; linarith) (by simp [Arc.knot, ha]; linarith)
    rw [hd0] at this
    simpa [Arc.knot, ha] using this
  have hgap1 : ∀ t, (1 / 3 : ℝ) ≤ t → t ≤ 2 / 3 → Arc.gap a ⟨1, 0, 0⟩ t = Arc.cub 108 (-54) 12 (-1) (t - 1 / 3) := by
    intro t h0 h1
    have := Arc.gap_seg (a := a) (by simp [ha]) ⟨1, 0, 0⟩ (i := 1) (by simp [ha]) (t := t)
      (by simp [Arc.knot, ha]; linarith) (by simp [Arc.knot, ha]; linarith)
    rw [hd1] at this
    simpa [Arc.knot, ha] using this
  have hgap2 : ∀ t, (2 / 3 : ℝ) ≤ t → t ≤ 1 → Arc.gap a ⟨1, 0, 0⟩ t = Arc.cub (-54) 54 12 1 (t - 2 / 3) := by
    intro t h0 h1
    have := Arc.gap_seg (a := a) (by simp [ha]) ⟨1, 0, 0⟩ (i := 2) (by simp [ha]) (t := t)
      (by simp [Arc.knot, ha]; linarith) (by simp [Arc.knot, ha]; linarith)
    rw [hd2] at this
    simpa [Arc.knot, ha] using this
  -- no segment reports a crossing
  have key : ∀ A B : ℝ, A < 0 → ∃ x, 1 ≤ x ∧ Arc.singleRoot A B = some (-2 * Arc.copysign (Real.sqrt (-A / 3)) B * x) := by
    intro A B hA
    have hsq : 0 < Real.sqrt (-A / 3) := Real.sqrt_pos.2 (by linarith)
    unfold Arc.singleRoot Arc.sqrt?
    rw [if_neg (by linarith)]
    simp only []
    rw [if_neg hsq.ne', if_pos hA]
    exact ⟨_, Real.one_le_cosh _, rfl⟩
  have hsqrt : (2 : ℝ) / 5 < Real.sqrt (-(-(5 / 9)) / 3) := by
    rw [Real.lt_sqrt (by norm_num)]; norm_num
  have hep : Arc.eps = 1 / 10000000000 := rfl
  have s0 : Arc.segRoots a ⟨1, 0, 0⟩ 0 = [] := by
    unfold Arc.segRoots; rw [hd0]
    have hk : Arc.knot a.n (0 + 1) - Arc.knot a.n 0 = 1 / 3 := by norm_num [Arc.knot, ha]
    rw [hk]
    unfold Arc.solveCubic
    rw [if_neg (by norm_num [Arc.eps])]
    norm_num only
    rw [if_neg (by norm_num [Arc.eps]), if_pos (by norm_num [Arc.eps])]
    obtain ⟨x, hx, e⟩ := key (-(5 / 9)) (1 / 6) (by norm_num)
    rw [e]
    simp only [Arc.copysign, Arc.push, Arc.inRange, hep]
    rw [if_neg (by norm_num : ¬ ((1 : ℝ) / 6 < 0)), if_neg]
    · rfl
    · rintro ⟨y, _⟩; nlinarith
  have s1 : Arc.segRoots a ⟨1, 0, 0⟩ 1 = [] := by
    unfold Arc.segRoots; rw [hd1]
    exact Arc.solveCubic_monotone_none (by norm_num [Arc.eps]) (by norm_num [Arc.depA])
      (by norm_num [Arc.disc, Arc.depA, Arc.depB, Arc.eps])
  have s2 : Arc.segRoots a ⟨1, 0, 0⟩ 2 = [] := by
    unfold Arc.segRoots; rw [hd2]
    have hk : Arc.knot a.n (2 + 1) - Arc.knot a.n 2 = 1 / 3 := by norm_num [Arc.knot, ha]
    rw [hk]
    unfold Arc.solveCubic
    rw [if_neg (by norm_num [Arc.eps])]
    norm_num only
    rw [if_neg (by norm_num [Arc.eps]), if_pos (by norm_num [Arc.eps])]
    obtain ⟨x, hx, e⟩ := key (-(5 / 9)) (-(1 / 6)) (by norm_num)
    rw [e]
    simp only [Arc.copysign, Arc.push, Arc.inRange, hep]
    rw [if_pos (by norm_num : (-((1 : ℝ) / 6) < 0)), if_neg]
    · rfl
    · rintro ⟨_, y⟩; nlinarith
  have hcross : Arc.planeCrossings a ⟨1, 0, 0⟩ = [] := by
    have e : Arc.planeCrossings a ⟨1, 0, 0⟩ = Arc.crossingsSpline a ⟨1, 0, 0⟩ := by
      unfold Arc.planeCrossings; rw [if_neg (by simp [ha])]
    rw [e]
    apply List.eq_nil_iff_forall_not_mem.2
    intro r hr
    obtain ⟨i, hi, u, hu, _⟩ := (Arc.crossingsSpline_spec a ⟨1, 0, 0⟩).1 r hr
    have hi3 : i = 0 ∨ i = 1 ∨ i = 2 := by simp [ha] at hi; omega
    rcases hi3 with rfl | rfl | rfl
    · rw [s0] at hu; simp at hu
    · rw [s1] at hu; simp at hu
    · rw [s2] at hu; simp at hu
  -- so everything is reported visible
  have hmid : Arc.gap a ⟨1, 0, 0⟩ (1 / 2) = 0 := by rw [hgap1 _ (by norm_num) (by norm_num)]; norm_num [Arc.cub]
  have hclip : clipArc [⟨1, 0, 0⟩] a = [(0, 1)] := by
    have hp : planeIntervals a ⟨1, 0, 0⟩ = [(0, 1)] := by
      unfold planeIntervals
      rw [hcross]
      simp only [boundaries, List.filter_nil, List.nil_append, scan]
      have : (0 : ℝ) ≤ V3.dot ⟨1, 0, 0⟩ (Arc.evaluate a ((0 + 1) / 2)) := by
        rw [show ((0 : ℝ) + 1) / 2 = 1 / 2 by norm_num]; exact hmid.ge
      rw [if_pos this]; simp [addInterval]
    unfold clipArc
    rw [if_neg (by simp), clipLoop, hp]
    simp [intersect, clipLoop]
  -- at time 1/4 it is on the negative side, and not near a crossing
  have h14 : Arc.gap a ⟨1, 0, 0⟩ (1 / 4) < 0 := by rw [hgap0 _ (by norm_num) (by norm_num)]; norm_num [Arc.cub]
  have := (hs (1 / 4) (by norm_num) (by norm_num) (by
    intro n hn z z0 z1 hz
    rw [List.mem_singleton] at hn; subst hn
    by_contra hcon
    push Not at hcon
    rw [abs_le] at hcon
    rw [hgap0 z z0 (by linarith)] at hz
    simp only [Arc.cub] at hz
    nlinarith [mul_nonneg z0 z0, mul_nonneg (mul_nonneg z0 z0) z0]))
  rw [hclip] at this
  have h2 := this.1 ⟨(0, 1), by simp, by norm_num, by norm_num⟩ ⟨1, 0, 0⟩ (by simp)
  linarith

end
end Huira.ArcClip
