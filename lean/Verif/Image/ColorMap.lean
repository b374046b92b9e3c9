import Verif.Num.XFloat
import Verif.Num.Vec3
import Mathlib.Tactic

/-!
# Depth and normal visualisation (C103)

Models `include/huira/images/color_map.hpp`.  An image is the list of its pixels; depths are extended floating-point values
(`Num/XFloat.lean`: NaN, infinities, exact finite arithmetic), normals have real components.
-/

set_option linter.unusedSimpArgs false
set_option linter.unusedVariables false

namespace Huira.ColorMap

noncomputable section
open Classical XF

/-- The body of `normal_map` (`color_map.hpp` 11-19) for one pixel: red, green, blue. -/
def normalPixel (n : V3) : V3 := ⟨n.x * 0.5 + 0.5, n.y * 0.5 + 0.5, n.z * 0.5 + 0.5⟩

/-- `normal_map` (`color_map.hpp` 11-19). -/
def normalMap (img : List V3) : List V3 := img.map normalPixel

/-- The first loop of `depth_map` (`color_map.hpp` 24-37): smallest and largest depth. -/
def rangeStep (r : XF × XF) (d : XF) : XF × XF :=
  if isInf d then r else
    (if XF.lt d r.1 then d else r.1, if XF.lt r.2 d then d else r.2)

/-- Both bounds, with their initial values (`color_map.hpp` 24-25). -/
def depthRange (img : List XF) : XF × XF := img.foldl rangeStep (pinf, fin 0)

/-- The second loop of `depth_map` (`color_map.hpp` 39-46) for one pixel: the value of all three channels. -/
def depthPixel (r : XF × XF) (d : XF) : XF :=
  if isInf d then fin 1 else
    XF.div (XF.mul (fin 0.8) (XF.add d (XF.neg r.1))) (XF.add r.2 (XF.neg r.1))

/-- `depth_map` (`color_map.hpp` 21-48): grey levels. -/
def depthMap (img : List XF) : List XF := img.map (depthPixel (depthRange img))

end

open XF

/-- What a depth picture shows (specification): background is white; with `m` and `M` the smallest and largest finite depth, a finite
depth is grey between black (nearest) and 80 % (farthest), and farther is strictly brighter. -/
structure Shows (img out : List XF) : Prop where
  size : out.length = img.length
  background : ∀ k : ℕ, img[k]? = some pinf → out[k]? = some (fin 1)
  grey : ∀ (k : ℕ) (d : ℝ), img[k]? = some (fin d) → ∃ v : ℝ, out[k]? = some (fin v) ∧ 0 ≤ v ∧ v ≤ 0.8
  order : ∀ (j k : ℕ) (d e : ℝ) (v w : ℝ), img[j]? = some (fin d) → img[k]? = some (fin e) → out[j]? = some (fin v) → out[k]? = some (fin w) →
    (d < e ↔ v < w)
  nearest : ∀ (k : ℕ) (d : ℝ), img[k]? = some (fin d) → (∀ e : ℝ, fin e ∈ img → d ≤ e) → out[k]? = some (fin 0)
  farthest : ∀ (k : ℕ) (d : ℝ), img[k]? = some (fin d) → (∀ e : ℝ, fin e ∈ img → e ≤ d) → out[k]? = some (fin 0.8)

/-- **C103, full statement** for depths: every image with non-negative depths. -/
def C103_full : Prop := ∀ img : List XF, (∀ d : ℝ, fin d ∈ img → 0 ≤ d) → Shows img (depthMap img)

open scoped Classical in
/-- The bounds found, for any image: what the loop has seen so far. -/
theorem range_spec (img : List XF) : ∀ (lo hi : ℝ) (h : ∃ d : ℝ, fin d ∈ img) (hlo : ∃ x : ℝ, fin x ∈ img ∧ x = lo)
    (hmin : ∀ e : ℝ, fin e ∈ img → lo ≤ e) (hhi : ∃ x : ℝ, fin x ∈ img ∧ x = hi) (hmax : ∀ e : ℝ, fin e ∈ img → e ≤ hi)
    (h0 : ∀ e : ℝ, fin e ∈ img → 0 ≤ e), depthRange img = (fin lo, fin hi) := by
  -- general statement: running minimum and maximum
  have inv : ∀ (l : List XF) (r : XF × XF), (r.1 = pinf ∨ ∃ a : ℝ, r.1 = fin a) → (∃ b : ℝ, r.2 = fin b) →
      ((∃ a : ℝ, (l.foldl rangeStep r).1 = fin a ∧ (r.1 = fin a ∨ fin a ∈ l) ∧ (∀ e : ℝ, fin e ∈ l → a ≤ e) ∧
          (∀ x : ℝ, r.1 = fin x → a ≤ x)) ∨
        ((l.foldl rangeStep r).1 = pinf ∧ r.1 = pinf ∧ ∀ e : ℝ, fin e ∉ l)) ∧
      (∃ b : ℝ, (l.foldl rangeStep r).2 = fin b ∧ (r.2 = fin b ∨ fin b ∈ l) ∧ (∀ e : ℝ, fin e ∈ l → e ≤ b) ∧
          (∀ x : ℝ, r.2 = fin x → x ≤ b)) := by
    intro l
    induction l with
    | nil =>
      rintro ⟨r1, r2⟩ h1 ⟨b, h2⟩
      simp only at h1 h2
      subst h2
      refine ⟨?_, ⟨b, rfl, .inl rfl, by simp, by intro x hx; simp only [XF.fin.injEq] at hx; exact hx.ge⟩⟩
      rcases h1 with h1 | ⟨a, h1⟩
      · exact .inr ⟨h1, h1, by simp⟩
      · subst h1
        exact .inl ⟨a, rfl, .inl rfl, by simp, by intro x hx; simp only [XF.fin.injEq] at hx; exact hx.le⟩
    | cons d l ih =>
      rintro ⟨r1, r2⟩ h1 ⟨b, h2⟩
      simp only at h1 h2
      subst h2
      rw [List.foldl_cons]
      -- pixels without a finite depth leave the bounds alone
      have skip : (∀ x : ℝ, d ≠ fin x) → rangeStep (r1, fin b) d = (r1, fin b) := by
        intro hd
        unfold rangeStep
        cases d with
        | nan =>
          rw [if_neg (by simp [isInf]), if_neg (by simp [XF.lt]), if_neg (by simp [XF.lt])]
        | ninf => rw [if_pos (by simp [isInf])]
        | pinf => rw [if_pos (by simp [isInf])]
        | fin x => exact absurd rfl (hd x)
      by_cases hd : ∃ x : ℝ, d = fin x
      · obtain ⟨x, rfl⟩ := hd
        have st : rangeStep (r1, fin b) (fin x) = (if XF.lt (fin x) r1 then fin x else r1, fin (max b x)) := by
          unfold rangeStep
          rw [if_neg (by simp [isInf])]
          refine Prod.ext rfl ?_
          by_cases hh : b < x
          · rw [max_eq_right hh.le]; exact if_pos hh
          · rw [max_eq_left (not_lt.1 hh)]; exact if_neg hh
        have st1 : ∃ a : ℝ, (if XF.lt (fin x) r1 then fin x else r1) = fin a ∧ a ≤ x ∧ (a = x ∨ r1 = fin a) ∧ ∀ y : ℝ, r1 = fin y → a ≤ y := by
          rcases h1 with h1 | ⟨a, h1⟩
          · subst h1
            exact ⟨x, by rw [if_pos (by simp [XF.lt])], le_rfl, .inl rfl, by simp⟩
          · subst h1
            by_cases hh : x < a
            · exact ⟨x, by rw [if_pos (by simpa [XF.lt] using hh)], le_rfl, .inl rfl, by intro y hy; simp only [XF.fin.injEq] at hy; linarith⟩
            · exact ⟨a, by rw [if_neg (by simpa [XF.lt] using hh)], not_lt.1 hh, .inr rfl, by intro y hy; simp only [XF.fin.injEq] at hy; exact hy.le⟩
        obtain ⟨a, ha, hax, har, hay⟩ := st1
        rw [st, ha]
        obtain ⟨i1, i2⟩ := ih (fin a, fin (max b x)) (.inr ⟨a, rfl⟩) ⟨_, rfl⟩
        constructor
        · left
          rcases i1 with ⟨a', e1, e2, e3, e4⟩ | ⟨_, h, _⟩
          · have haa := e4 a rfl
            refine ⟨a', e1, ?_, ?_, fun y hy => haa.trans (hay y hy)⟩
            · rcases e2 with e2 | e2
              · simp only [XF.fin.injEq] at e2
                subst e2
                rcases har with rfl | h
                · right; simp
                · exact .inl h
              · right; simp [e2]
            · intro e he
              rcases List.mem_cons.1 he with h | h
              · simp only [XF.fin.injEq] at h; subst h; exact haa.trans hax
              · exact e3 e h
          · exact absurd h (by simp)
        · obtain ⟨b', e1, e2, e3, e4⟩ := i2
          have hbb := e4 _ rfl
          refine ⟨b', e1, ?_, ?_, ?_⟩
          · rcases e2 with e2 | e2
            · simp only [XF.fin.injEq] at e2
              rcases max_choice b x with h | h
              · rw [h] at e2; left; rw [e2]
              · rw [h] at e2; right; rw [e2]; simp
            · right; simp [e2]
          · intro e he
            rcases List.mem_cons.1 he with h | h
            · simp only [XF.fin.injEq] at h; subst h; exact (le_max_right _ _).trans hbb
            · exact e3 e h
          · intro y hy; simp only [XF.fin.injEq] at hy; subst hy; exact (le_max_left _ _).trans hbb
      · push Not at hd
        rw [skip hd]
        obtain ⟨i1, b', e1, e2, e3, e4⟩ := ih (r1, fin b) h1 ⟨_, rfl⟩
        have nm : ∀ e : ℝ, fin e ∈ d :: l ↔ fin e ∈ l := by
          intro e
          rw [List.mem_cons]
          exact ⟨fun h => h.resolve_left (fun h' => hd e h'.symm), .inr⟩
        simp only [nm]
        exact ⟨i1, b', e1, e2, e3, e4⟩
  intro lo hi _ ⟨_, m1, rfl⟩ hmin ⟨_, m2, rfl⟩ hmax h0
  obtain ⟨i1, b', e1, e2, e3, e4⟩ := inv img (pinf, fin 0) (.inl rfl) ⟨0, rfl⟩
  refine Prod.ext ?_ ?_
  · rcases i1 with ⟨a, f1, f2, f3, f4⟩ | ⟨_, _, h⟩
    · show (img.foldl rangeStep (pinf, fin 0)).1 = _
      rw [f1]
      have : fin a ∈ img := f2.resolve_left (by simp)
      rw [le_antisymm (f3 _ m1) (hmin _ this)]
    · exact absurd m1 (h _)
  · show (img.foldl rangeStep (pinf, fin 0)).2 = _
    rw [e1]
    rcases e2 with h | h
    · simp only [XF.fin.injEq] at h
      subst h
      rw [le_antisymm (h0 _ m2) (e3 _ m2)]
    · rw [le_antisymm (hmax _ h) (e3 _ m2)]

/-- The finite depths of an image have a smallest and a largest one. -/
theorem bounds_exist (img : List XF) (h : ∃ d : ℝ, fin d ∈ img) :
    ∃ lo hi : ℝ, fin lo ∈ img ∧ fin hi ∈ img ∧ (∀ e : ℝ, fin e ∈ img → lo ≤ e) ∧ (∀ e : ℝ, fin e ∈ img → e ≤ hi) := by
  have hf : {d : ℝ | fin d ∈ img}.Finite := by
    have : {d : ℝ | fin d ∈ img} = (fun d : ℝ => fin d) ⁻¹' {x | x ∈ img} := rfl
    rw [this]
    exact (List.finite_toSet img).preimage (fun a _ b _ h => by simpa using h)
  have hne : {d : ℝ | fin d ∈ img}.Nonempty := h
  obtain ⟨lo, l1, l2⟩ := Set.exists_min_image _ id hf hne
  obtain ⟨hi, r1, r2⟩ := Set.exists_max_image _ id hf hne
  exact ⟨lo, hi, l1, r1, fun e he => l2 e he, fun e he => r2 e he⟩

theorem depthPixel_fin (lo hi d : ℝ) (h : lo < hi) : depthPixel (fin lo, fin hi) (fin d) = fin (0.8 * (d - lo) / (hi - lo)) := by
  have : hi + -lo ≠ 0 := by intro h'; linarith
  simp only [depthPixel, isInf, if_false, XF.neg, XF.add, XF.mul, XF.div, if_neg this]
  rw [sub_eq_add_neg, sub_eq_add_neg]

/-- **C103.**  Every image with non-negative depths in which at least two finite depths differ — whatever else it contains, background,
NaN — is shown as specified. -/
theorem C103_depth_partial (img : List XF) (h0 : ∀ d : ℝ, fin d ∈ img → 0 ≤ d)
    (h2 : ∃ d e : ℝ, fin d ∈ img ∧ fin e ∈ img ∧ d ≠ e) : Shows img (depthMap img) := by
  obtain ⟨d1, d2, m1, m2, hne⟩ := h2
  obtain ⟨lo, hi, b1, b2, b3, b4⟩ := bounds_exist img ⟨d1, m1⟩
  have hr := range_spec img lo hi ⟨d1, m1⟩ ⟨lo, b1, rfl⟩ b3 ⟨hi, b2, rfl⟩ b4 h0
  have hlt : lo < hi := by
    rcases lt_or_gt_of_ne hne with h | h
    · linarith [b3 d1 m1, b4 d2 m2]
    · linarith [b3 d2 m2, b4 d1 m1]
  have hp : 0 < hi - lo := by linarith
  have px : ∀ (k : ℕ) (d : ℝ), img[k]? = some (fin d) → (depthMap img)[k]? = some (fin (0.8 * (d - lo) / (hi - lo))) := by
    intro k d hk
    unfold depthMap
    rw [List.getElem?_map, hk, hr, Option.map_some, depthPixel_fin lo hi d hlt]
  refine ⟨by simp [depthMap], ?_, ?_, ?_, ?_, ?_⟩
  · intro k hk
    unfold depthMap
    rw [List.getElem?_map, hk]
    simp [depthPixel, isInf]
  · intro k d hk
    have hm := List.mem_of_getElem? hk
    refine ⟨_, px k d hk, ?_, ?_⟩
    · have := b3 d hm
      apply div_nonneg _ hp.le
      nlinarith
    · rw [div_le_iff₀ hp]
      have := b4 d hm
      nlinarith
  · intro j k d e v w hj hk hv hw
    rw [px j d hj] at hv
    rw [px k e hk] at hw
    simp only [Option.some.injEq, XF.fin.injEq] at hv hw
    rw [← hv, ← hw, div_lt_div_iff_of_pos_right hp]
    constructor <;> intro h <;> linarith
  · intro k d hk hmin
    have : d = lo := le_antisymm (hmin lo b1) (b3 d (List.mem_of_getElem? hk))
    rw [px k d hk, this]; simp
  · intro k d hk hmax
    have : d = hi := le_antisymm (b4 d (List.mem_of_getElem? hk)) (hmax hi b2)
    rw [px k d hk, this]
    rw [mul_div_assoc, div_self hp.ne', mul_one]

/-- **C103.**  Whenever all finite depths are equal — a wall seen head on, or a single pixel on the object — every one of them is shown
as NaN. -/
theorem C103_flat (img : List XF) (d : ℝ) (hd : 0 ≤ d) (hm : fin d ∈ img) (h : ∀ e : ℝ, fin e ∈ img → e = d) (k : ℕ)
    (hk : img[k]? = some (fin d)) : (depthMap img)[k]? = some nan := by
  have hr := range_spec img d d ⟨d, hm⟩ ⟨d, hm, rfl⟩ (fun e he => (h e he).ge) ⟨d, hm, rfl⟩ (fun e he => (h e he).le)
    (fun e he => by rw [h e he]; exact hd)
  unfold depthMap
  rw [List.getElem?_map, hk, hr, Option.map_some]
  simp [depthPixel, isInf, XF.neg, XF.add, XF.mul, XF.div, infTimes]

/-- **C103 is violated** by an image with one object pixel. -/
theorem C103_violated : ¬ C103_full := by
  intro h
  have hm : ∀ e : ℝ, fin e ∈ [fin 5, pinf] → e = 5 := by
    intro e he; simpa using he
  obtain ⟨v, hv, _⟩ := (h [fin 5, pinf] (fun d hd => by rw [hm d hd]; norm_num)).grey 0 5 rfl
  rw [C103_flat [fin 5, pinf] 5 (by norm_num) (by simp) hm 0 rfl] at hv
  simp at hv

/-- **C103.**  The normal picture keeps the whole information and unit normals give colours in range. -/
theorem C103_normals (img : List V3) : (normalMap img).length = img.length ∧
    ∀ (k : ℕ) (n : V3), img[k]? = some n → ∃ c, (normalMap img)[k]? = some c ∧
      n = ⟨2 * c.x - 1, 2 * c.y - 1, 2 * c.z - 1⟩ ∧
      (V3.dot n n = 1 → (0 ≤ c.x ∧ c.x ≤ 1) ∧ (0 ≤ c.y ∧ c.y ≤ 1) ∧ (0 ≤ c.z ∧ c.z ≤ 1)) := by
  refine ⟨by simp [normalMap], fun k n hk => ⟨normalPixel n, by simp [normalMap, hk], ?_, ?_⟩⟩
  · ext <;> simp only [normalPixel] <;> ring
  · intro hn
    simp only [V3.dot] at hn
    simp only [normalPixel]
    refine ⟨⟨?_, ?_⟩, ⟨?_, ?_⟩, ⟨?_, ?_⟩⟩ <;>
      nlinarith [mul_self_nonneg n.x, mul_self_nonneg n.y, mul_self_nonneg n.z, mul_self_nonneg (n.x - 1), mul_self_nonneg (n.x + 1),
        mul_self_nonneg (n.y - 1), mul_self_nonneg (n.y + 1), mul_self_nonneg (n.z - 1), mul_self_nonneg (n.z + 1)]

/-- An image meeting the hypotheses of `C103_depth_partial`, with background and a NaN pixel, and what it shows. -/
example : (depthMap [fin 1, pinf, nan, fin 3])[0]? = some (fin 0) ∧ (depthMap [fin 1, pinf, nan, fin 3])[3]? = some (fin 0.8) := by
  have hm : ∀ e : ℝ, fin e ∈ [fin 1, pinf, nan, fin 3] → e = 1 ∨ e = 3 := by intro e he; simpa using he
  have h := C103_depth_partial [fin 1, pinf, nan, fin 3] (fun d hd => by rcases hm d hd with h | h <;> rw [h] <;> norm_num)
    ⟨1, 3, by simp, by simp, by norm_num⟩
  exact ⟨h.nearest 0 1 rfl (fun e he => by rcases hm e he with h | h <;> rw [h] <;> norm_num),
    h.farthest 3 3 rfl (fun e he => by rcases hm e he with h | h <;> rw [h] <;> norm_num)⟩

end Huira.ColorMap
