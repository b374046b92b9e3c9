import Verif.ImageIO.PngProps
import Mathlib.Logic.Encodable.Basic
import Mathlib.Logic.Equiv.List
/-!
# PNG: writing and reading back, safety, colour-space hints (C104)
-/
set_option linter.unusedSimpArgs false
set_option linter.unusedVariables false
namespace Huira.ImageIO.Png
open Huira.Num Huira.ImageIO Huira.ImageIO.Convert

/-! ## Specification -/

/-- The two files have the same contents. -/
structure Same (f g : File) : Prop where
  w : f.w = g.w
  h : f.h = g.h
  ct : f.ct = g.ct
  depth : f.depth = g.depth
  palette : f.palette = g.palette
  trns : f.trns = g.trns
  sample : ∀ x y c, x < f.w → y < f.h → c < channelsOf f.ct → f.sample x y c = g.sample x y c
  iccp : f.iccp = g.iccp
  srgb : f.srgb = g.srgb
  gama : f.gama = g.gama
  complete : f.complete = g.complete

/-- libpng reads back what it wrote. -/
def LibOk (lib : Lib) : Prop := ∀ f, Valid f → ∃ g, IsPng lib (lib.encode f) g ∧ Same f g

/-- An image whose pixel buffer has the right size. -/
def Img.WF {P : Type} (i : Img P) : Prop := i.data.length = i.h * i.w

/-- Every component of the pixels (and of the alpha image) is a number. -/
def NoNaN (b : Bundle (FV × FV × FV)) : Prop :=
  (∀ p ∈ b.image.data, p.1 ≠ .nan ∧ p.2.1 ≠ .nan ∧ p.2.2 ≠ .nan) ∧ ∀ a ∈ b.alpha.data, a ≠ .nan

/-- `v` is `u` clamped to [0, 1], to within 0.52 of a quantisation step. -/
def Close (steps : ℚ) (u v : FV) : Prop := ∃ q q', u = .val q ∧ v = .val q' ∧ |q' - min 1 (max 0 q)| ≤ 13 / 25 / steps

/-- Steps of a bit depth. -/
def steps (depth : Int) : ℚ := if depth = 16 then 65535 else 255

/-- The alpha image is written. -/
def AlphaKept (b : Bundle (FV × FV × FV)) : Prop := b.alpha.w = b.image.w ∧ b.alpha.h = b.image.h

/-! ## Levels -/

theorem clamp01_eq (q : ℚ) : clamp01 q = min 1 (max 0 q) := by
  unfold clamp01
  by_cases h0 : q < 0
  · rw [if_pos h0, max_eq_left h0.le]; norm_num
  · rw [if_neg h0, max_eq_right (not_lt.1 h0)]
    by_cases h1 : 1 < q
    · rw [if_pos h1, min_eq_left h1.le]
    · rw [if_neg h1, min_eq_right (not_lt.1 h1)]

theorem clamp_near {fl : ℚ → ℚ} (h : IsRounding fl) (q : ℚ) : |clamp01 (fl q) - clamp01 q| ≤ 1 / 2 ^ 24 := by
  unfold clamp01
  rcases lt_or_ge q 0 with h0 | h0
  · have h1 : fl q ≤ 0 := fl_le h rep0 h0.le
    rw [if_pos h0]
    by_cases h2 : fl q < 0
    · rw [if_pos h2]; norm_num
    · have : fl q = 0 := le_antisymm h1 (not_lt.1 h2)
      rw [this]; norm_num
  · have h1 : 0 ≤ fl q := le_fl h rep0 h0
    rw [if_neg (not_lt.2 h0), if_neg (not_lt.2 h1)]
    rcases lt_or_ge 1 q with h2 | h2
    · have h3 : 1 ≤ fl q := le_fl h rep1 h2.le
      rw [if_pos h2]
      by_cases h4 : 1 < fl q
      · rw [if_pos h4]; norm_num
      · have : fl q = 1 := le_antisymm (not_lt.1 h4) h3
        rw [this]; norm_num
    · have h3 : fl q ≤ 1 := fl_le h rep1 h2
      rw [if_neg (not_lt.2 h2), if_neg (not_lt.2 h3)]
      have := h.rel q
      rw [abs_of_nonneg h0] at this
      refine this.trans ?_
      gcongr

/-- The level written for a number, and what it is read back as. -/
theorem toLevel_ok {fl : ℚ → ℚ} (h : IsRounding fl) (M : ℕ) (hM : M = 255 ∨ M = 65535) (q : ℚ) :
    ∃ v : ℕ, toLevel fl M (.val q) = .ok v ∧ v ≤ M ∧ |fl ((v : ℚ) / M) - min 1 (max 0 q)| ≤ 13 / 25 / M := by
  have hM0 : (0 : ℚ) < M := by rcases hM with rfl | rfl <;> norm_num
  have hM1 : (M : ℚ) ≤ 65535 := by rcases hM with rfl | rfl <;> norm_num
  obtain ⟨n, hn⟩ : ∃ n, n = clamp01 (fl q) := ⟨_, rfl⟩
  have hn01 : 0 ≤ n ∧ n ≤ 1 := by
    rw [hn, clamp01_eq]; exact ⟨le_min (by norm_num) (le_max_left _ _), min_le_left _ _⟩
  have hnq := clamp_near h q
  rw [← hn, clamp01_eq q] at hnq
  have hflM : fl ((M : ℤ) : ℚ) = (M : ℚ) := by
    rw [small_exact h (M : ℤ) (by omega) (by rcases hM with rfl | rfl <;> norm_num)]; norm_cast
  obtain ⟨a, ha⟩ : ∃ a, a = fl (n * M) := ⟨_, rfl⟩
  have hnM : 0 ≤ n * M ∧ n * M ≤ M := ⟨mul_nonneg hn01.1 hM0.le, by nlinarith [hn01.2]⟩
  have ha1 := fl_small h (n * M) (by rw [abs_of_nonneg hnM.1]; linarith [hnM.2])
  rw [← ha] at ha1
  have ha0 : 0 ≤ a := by rw [ha]; exact le_fl h rep0 hnM.1
  have ha2 : a ≤ M := by
    rw [ha]; apply fl_le h _ hnM.2
    have := representable_int (M : ℤ) (by rcases hM with rfl | rfl <;> norm_num)
    exact_mod_cast this
  obtain ⟨b, hb⟩ : ∃ b, b = fl (a + 1 / 2) := ⟨_, rfl⟩
  have hb1 := fl_small h (a + 1 / 2) (by rw [abs_of_nonneg (by linarith)]; linarith)
  rw [← hb] at hb1
  have ha1' := abs_le.1 ha1
  have hb1' := abs_le.1 hb1
  have hb0 : 0 ≤ b := by linarith
  have hfl0 : 0 ≤ ⌊b⌋ := Int.floor_nonneg.2 hb0
  have hflM' : ⌊b⌋ ≤ (M : ℤ) := by
    have : (⌊b⌋ : ℚ) ≤ b := Int.floor_le b
    have : ((⌊b⌋ : ℤ) : ℚ) < ((M + 1 : ℤ) : ℚ) := by push_cast; linarith
    have := Int.cast_lt.1 this
    omega
  refine ⟨⌊b⌋.toNat, ?_, by omega, ?_⟩
  · have : fromFloatU fl (M : ℤ) q 0 1 = some ⌊b⌋ := by
      unfold fromFloatU
      simp only [sub_zero]
      rw [fl1 h, div_one, h.exact (h.repr q), hflM, ← hn, ← ha, ← hb, castInt_pos _ _ _ hb0, if_pos ⟨hfl0, hflM'⟩]
    simp only [toLevel, this]
  · have hv : ((⌊b⌋.toNat : ℕ) : ℚ) = (⌊b⌋ : ℚ) := by
      have : ((⌊b⌋.toNat : ℕ) : ℤ) = ⌊b⌋ := Int.toNat_of_nonneg hfl0
      exact_mod_cast this
    rw [hv]
    have f1 := Int.floor_le b
    have f2 := Int.lt_floor_add_one b
    have hvM : (⌊b⌋ : ℚ) ≤ M := by exact_mod_cast hflM'
    have hv0 : (0 : ℚ) ≤ ⌊b⌋ := by exact_mod_cast hfl0
    have e := h.rel ((⌊b⌋ : ℚ) / M)
    have hq1 : (⌊b⌋ : ℚ) / M ≤ 1 := div_le_one_of_le₀ hvM hM0.le
    have hq0 : 0 ≤ (⌊b⌋ : ℚ) / M := div_nonneg hv0 hM0.le
    rw [abs_of_nonneg hq0] at e
    have e' : |fl ((⌊b⌋ : ℚ) / M) - (⌊b⌋ : ℚ) / M| ≤ 1 / 2 ^ 24 := e.trans (by gcongr)
    have d1 : |(⌊b⌋ : ℚ) / M - n| ≤ (1 / 2 + 2 / 256) / M := by
      rw [show (⌊b⌋ : ℚ) / M - n = ((⌊b⌋ : ℚ) - n * M) / M by field_simp, abs_div, abs_of_pos hM0]
      gcongr
      rw [abs_le]; constructor <;> linarith
    have d2 : (1 : ℚ) / 2 ^ 24 ≤ (1 / 256) / M := by
      rw [div_le_div_iff₀ (by norm_num) hM0]; linarith
    have tot : |fl ((⌊b⌋ : ℚ) / M) - min 1 (max 0 q)| ≤ 1 / 2 ^ 24 + (1 / 2 + 2 / 256) / M + 1 / 2 ^ 24 := by
      have := abs_le.1 e'
      have := abs_le.1 d1
      have := abs_le.1 hnq
      rw [abs_le]; constructor <;> linarith
    refine tot.trans ?_
    have : (1 / 256 : ℚ) / M + (1 / 2 + 2 / 256) / M + (1 / 256) / M ≤ 13 / 25 / M := by
      rw [← add_div, ← add_div]; gcongr; norm_num
    linarith

/-- The 8-bit level written is the nearest one (to within rounding). -/
theorem toLevel_near {fl : ℚ → ℚ} (h : IsRounding fl) (q : ℚ) :
    ∃ v : ℕ, toLevel fl 255 (.val q) = .ok v ∧ v ≤ 255 ∧ |(v : ℚ) - 255 * min 1 (max 0 q)| ≤ 1 / 2 + 6 / 256 := by
  obtain ⟨v, h1, h2, h3⟩ := toLevel_ok h 255 (Or.inl rfl) q
  refine ⟨v, h1, h2, ?_⟩
  have hv : (v : ℚ) ≤ 255 := by exact_mod_cast h2
  have e := h.rel ((v : ℚ) / 255)
  rw [abs_of_nonneg (by positivity : (0 : ℚ) ≤ (v : ℚ) / 255)] at e
  have e' := abs_le.1 e
  have k : (v : ℚ) / 255 / 2 ^ 24 ≤ 1 / 2 ^ 24 := by
    have : (v : ℚ) / 255 ≤ 1 := by rw [div_le_one (by norm_num)]; exact hv
    gcongr
  push_cast at h3
  generalize min 1 (max 0 q) = m at h3 ⊢
  have h3' := abs_le.1 h3
  norm_num at k e' h3'
  rw [abs_le]; constructor <;> linarith

/-- A value already on a level is written as that level. -/
theorem toLevel_exact {fl : ℚ → ℚ} (h : IsRounding fl) (M : ℕ) (hM : M = 255 ∨ M = 65535) (v : ℕ) (hv : v ≤ M) :
    toLevel fl M (.val (fl ((v : ℚ) / M))) = .ok v := by
  have := C25_unsigned_partial h (M : ℤ) (v : ℤ) (by rcases hM with rfl | rfl <;> norm_num)
    (by rcases hM with rfl | rfl <;> norm_num) (by omega) (by exact_mod_cast hv)
  rw [toFloatU_eq h (M : ℤ) v (by rcases hM with rfl | rfl <;> norm_num) (by omega) (by exact_mod_cast hv)] at this
  push_cast at this
  simp only [toLevel, this]
  simp

/-! ## The file written -/

theorem mapRes_choose {α β : Type} (f : α → Res β) (Q : α → β → Prop) : ∀ (l : List α), (∀ a ∈ l, ∃ b, f a = .ok b ∧ Q a b) →
    ∃ bs, mapRes f l = .ok bs ∧ bs.length = l.length ∧ ∀ (i : ℕ) (a : α), l[i]? = some a → ∃ b, bs[i]? = some b ∧ Q a b
  | [], _ => ⟨[], rfl, rfl, by simp⟩
  | a :: l, hl => by
    obtain ⟨b, hb, hq⟩ := hl a (List.mem_cons_self ..)
    obtain ⟨bs, hbs, hlen, hall⟩ := mapRes_choose f Q l (fun x hx => hl x (List.mem_cons_of_mem _ hx))
    refine ⟨b :: bs, by unfold mapRes; rw [hb, hbs]; rfl, by simp [hlen], ?_⟩
    intro i a' hi
    cases i with
    | zero => simp at hi; subst hi; exact ⟨b, rfl, hq⟩
    | succ i => simp at hi ⊢; exact hall i a' hi

theorem img_get {P : Type} (i : Img P) (h : i.WF) (x y : Nat) (hx : x < i.w) (hy : y < i.h) :
    ∃ p, i.data[y * i.w + x]? = some p ∧ p ∈ i.data := by
  have : y * i.w + x < i.data.length := by
    rw [h]
    have : (y + 1) * i.w ≤ i.h * i.w := Nat.mul_le_mul_right _ hy
    rw [Nat.succ_mul] at this; omega
  exact ⟨_, List.getElem?_eq_getElem this, List.getElem_mem this⟩

/-- What is stored for one pixel, with a relation `R` between the value given and the level stored. -/
def PixelOk (R : FV → ℕ → Prop) (b : Bundle (FV × FV × FV)) (al : Bool) (x y : Nat) (l : List ℕ) : Prop :=
  ∃ p r g bl, b.image.data[y * b.image.w + x]? = some p ∧ R p.1 r ∧ R p.2.1 g ∧ R p.2.2 bl ∧
    if al then ∃ a la, b.alpha.data[y * b.alpha.w + x]? = some a ∧ R a la ∧ l = [r, g, bl, la] else l = [r, g, bl]

/-- Writing succeeds and produces a valid file holding the levels. -/
theorem write_ok {fl : ℚ → ℚ} (M : ℕ) (R : FV → ℕ → Prop) (b : Bundle (FV × FV × FV))
    (hd : (b.depth = 8 ∧ M = 255) ∨ (b.depth = 16 ∧ M = 65535))
    (hR : ∀ v, (v ∈ b.alpha.data ∨ ∃ p ∈ b.image.data, v = p.1 ∨ v = p.2.1 ∨ v = p.2.2) → ∃ n, toLevel fl M v = .ok n ∧ n ≤ M ∧ R v n)
    (hw : 0 < b.image.w) (hh : 0 < b.image.h) (hsz : b.image.w * b.image.h < 2147483648) (hwf : b.image.WF) (hwa : b.alpha.WF) (ch : Bool × Option ℕ)
    (hch : spaceChunk b.hint b.gamma = .ok ch) (hg : ∀ n, ch.2 = some n → 0 < n) :
    ∃ f, writeRGB fl b = .ok f ∧ Valid f ∧ f.complete = true ∧ f.w = b.image.w ∧ f.h = b.image.h ∧ f.iccp = false ∧
      f.srgb = ch.1 ∧ f.gama = ch.2 ∧ (f.depth : ℤ) = b.depth ∧ (HasAlpha f ↔ AlphaKept b) ∧ ¬ IsGrey f ∧
      ∀ x y, x < f.w → y < f.h → ∃ p r g bl, b.image.data[y * f.w + x]? = some p ∧ R p.1 r ∧ R p.2.1 g ∧ R p.2.2 bl ∧
        (shown f x y).1 = r / M ∧ (shown f x y).2.1 = g / M ∧ (shown f x y).2.2.1 = bl / M ∧
        (AlphaKept b → ∃ a la, b.alpha.data[y * f.w + x]? = some a ∧ R a la ∧ (shown f x y).2.2.2 = la / M) := by
  classical
  set al : Bool := decide (b.alpha.w ≠ 0 ∧ b.alpha.h ≠ 0) && !decide (b.alpha.w ≠ b.image.w ∨ b.alpha.h ≠ b.image.h) with hal
  have halk : al = true ↔ AlphaKept b := by
    rw [hal]; simp only [AlphaKept, Bool.and_eq_true, decide_eq_true_eq, Bool.not_eq_true', decide_eq_false_iff_not, not_or, not_not]
    constructor
    · exact fun h => h.2
    · intro h; exact ⟨⟨by omega, by omega⟩, h⟩
  have hM : M = 255 ∨ M = 65535 := by rcases hd with h | h <;> simp [h.2]
  have htm : (if b.depth = 16 then (65535 : ℤ) else 255) = (M : ℤ) := by
    rcases hd with h | h <;> simp [h.1, h.2]
  have hpix : ∀ q ∈ grid b.image.w b.image.h, ∃ l, pixelLevels fl (M : ℤ) b al q.1 q.2 = .ok l ∧
      (PixelOk R b al q.1 q.2 l ∧ ∀ v ∈ l, v ≤ M) := by
    intro q hq
    obtain ⟨hx, hy⟩ := (mem_grid _ _ _).1 hq
    obtain ⟨p, hp, hpm⟩ := img_get b.image hwf q.1 q.2 hx hy
    obtain ⟨r, hr, hr', Rr⟩ := hR p.1 (Or.inr ⟨p, hpm, Or.inl rfl⟩)
    obtain ⟨g, hg, hg', Rg⟩ := hR p.2.1 (Or.inr ⟨p, hpm, Or.inr (Or.inl rfl)⟩)
    obtain ⟨bl, hb, hb', Rb⟩ := hR p.2.2 (Or.inr ⟨p, hpm, Or.inr (Or.inr rfl)⟩)
    cases hA : al with
    | false =>
      refine ⟨[r, g, bl], ?_, ⟨p, r, g, bl, hp, Rr, Rg, Rb, by simp⟩, by simp [hr', hg', hb']⟩
      simp [pixelLevels, pixelAt, hp, hr, hg, hb]
    | true =>
      have hk := halk.1 hA
      obtain ⟨a, ha, ham⟩ := img_get b.alpha hwa q.1 q.2 (by rw [hk.1]; exact hx) (by rw [hk.2]; exact hy)
      obtain ⟨la, hla, hla', Ra⟩ := hR a (Or.inl ham)
      refine ⟨[r, g, bl, la], ?_, ⟨p, r, g, bl, hp, Rr, Rg, Rb, by simp only [if_true]; exact ⟨a, la, ha, Ra, rfl⟩⟩, by simp [hr', hg', hb', hla']⟩
      simp [pixelLevels, pixelAt, hp, hr, hg, hb, ha, hla]
  obtain ⟨rows, hrows, hlen, hall⟩ := mapRes_choose _ _ _ hpix
  have hst : ∀ v, stored b.depth (decide (b.depth = 16)) v = v := by
    intro v; unfold stored
    rw [if_neg]; rintro ⟨h1, h2⟩; simp [h1] at h2
  set f : File := { w := b.image.w, h := b.image.h, ct := if al then 6 else 2, depth := b.depth.toNat, palette := [], trns := none
                    sample := fun x y c => stored b.depth (decide (b.depth = 16)) ((((rows[y * b.image.w + x]?).getD [])[c]?).getD 0)
                    iccp := false, srgb := ch.1, gama := ch.2, complete := true } with hf
  have hwrite : writeRGB fl b = .ok f := by
    unfold writeRGB
    rw [if_neg (by omega)]
    simp only [← hal]
    rw [if_neg (by rcases hd with h | h <;> simp [h.1])]
    rw [hch, Res.ok_bind]
    simp only [htm]
    rw [hrows]; rfl
  have hrow : ∀ x y, x < b.image.w → y < b.image.h → ∃ l, rows[y * b.image.w + x]? = some l ∧ PixelOk R b al x y l ∧ ∀ v ∈ l, v ≤ M := by
    intro x y hx hy
    obtain ⟨l, h1, h2⟩ := hall (y * b.image.w + x) (x, y) (grid_get _ _ x y hx hy)
    exact ⟨l, h1, h2⟩
  have hdep : f.depth = 8 ∧ M = 255 ∨ f.depth = 16 ∧ M = 65535 := by
    rcases hd with h | h
    · left; exact ⟨by simp [hf, h.1], h.2⟩
    · right; exact ⟨by simp [hf, h.1], h.2⟩
  have h2M : 2 ^ f.depth = M + 1 := by rcases hdep with h | h <;> rw [h.1, h.2] <;> norm_num
  have h2Mq : (2 : ℚ) ^ f.depth - 1 = M := by
    have : ((2 ^ f.depth : ℕ) : ℚ) = ((M + 1 : ℕ) : ℚ) := by rw [h2M]
    push_cast at this; linarith
  have hct : f.ct = if al then 6 else 2 := rfl
  have hdm : f.depth ∈ [8, 16] := by rcases hdep with h | h <;> simp [h.1]
  have hvalid : Valid f := by
    refine ⟨hw, hh, ?_, ?_, ?_, fun _ => rfl, ?_, fun n hn => hg n hn⟩
    · cases hA : al
      · right; left; exact ⟨by rw [hct, hA]; rfl, hdm⟩
      · right; right; right; right; exact ⟨by rw [hct, hA]; rfl, hdm⟩
    · intro x y c hx hy _
      obtain ⟨l, h1, _, h3⟩ := hrow x y hx hy
      rw [h2M]
      show stored _ _ ((((rows[y * b.image.w + x]?).getD [])[c]?).getD 0) < M + 1
      rw [hst, h1, Option.getD_some]
      cases hc : l[c]? with
      | none => simp
      | some v => simp; exact Nat.lt_succ_of_le (h3 v (List.mem_of_getElem? hc))
    · intro h3; exfalso; rw [hct] at h3; cases hA : al <;> rw [hA] at h3 <;> simp at h3
    · intro h3; exfalso; rw [hct] at h3; cases hA : al <;> rw [hA] at h3 <;> simp at h3
  refine ⟨f, hwrite, hvalid, rfl, rfl, rfl, rfl, rfl, rfl, ?_, ?_, ?_, ?_⟩
  · rcases hd with h | h <;> simp [hf, h.1]
  · rw [← halk]; unfold HasAlpha; rw [hct]; cases al <;> simp [hf]
  · unfold IsGrey; rw [hct]; cases al <;> simp
  · intro x y hx hy
    obtain ⟨l, h1, ⟨p, r, g, bl, hp, Rr, Rg, Rb, hl⟩, h3⟩ := hrow x y hx hy
    have hs : ∀ c, f.sample x y c = (l[c]?).getD 0 := by
      intro c
      show stored _ _ ((((rows[y * b.image.w + x]?).getD [])[c]?).getD 0) = _
      rw [hst, h1, Option.getD_some]
    refine ⟨p, r, g, bl, hp, Rr, Rg, Rb, ?_⟩
    cases hA : al with
    | false =>
      rw [hA] at hl
      have hl' : l = [r, g, bl] := by simpa using hl
      rw [hA] at hct
      have hct' : f.ct = 2 := by simpa using hct
      refine ⟨?_, ?_, ?_, fun hk => by rw [halk.2 hk] at hA; exact absurd hA (by decide)⟩ <;>
        simp [shown, hct', hs, hl', h2Mq]
    | true =>
      rw [hA] at hl
      obtain ⟨a, la, ha, Ra, hl'⟩ := (by simpa using hl : ∃ a, b.alpha.data[y * b.alpha.w + x]? = some a ∧ ∃ la, R a la ∧ l = [r, g, bl, la]) |>.imp
        (fun a h => (by obtain ⟨h1, la, h2, h3⟩ := h; exact ⟨la, h1, h2, h3⟩ : ∃ la, b.alpha.data[y * b.alpha.w + x]? = some a ∧ R a la ∧ l = [r, g, bl, la]))
      rw [hA] at hct
      have hct' : f.ct = 6 := by simpa using hct
      have hk := halk.1 hA
      refine ⟨?_, ?_, ?_, fun _ => ⟨a, la, by rw [show f.w = b.alpha.w from hk.1.symm]; exact ha, Ra, ?_⟩⟩ <;>
        simp [shown, hct', hs, hl', h2Mq]

/-! ## Reading back -/

theorem same_shown (f g : File) (h : Valid f) (s : Same f g) (x y : Nat) (hx : x < f.w) (hy : y < f.h) : shown g x y = shown f x y := by
  have hs := fun c hc => s.sample x y c hx hy hc
  unfold shown
  rw [← s.ct, ← s.depth, ← s.trns, ← s.palette]
  rcases h.form with ⟨hct, _⟩ | ⟨hct, _⟩ | ⟨hct, _⟩ | ⟨hct, _⟩ | ⟨hct, _⟩ <;> rw [hct] at hs
  · simp [hct, hs 0 (by simp [channelsOf])]
  · simp [hct, hs 0 (by simp [channelsOf]), hs 1 (by simp [channelsOf]), hs 2 (by simp [channelsOf])]
  · simp [hct, hs 0 (by simp [channelsOf])]
  · simp [hct, hs 0 (by simp [channelsOf]), hs 1 (by simp [channelsOf])]
  · simp [hct, hs 0 (by simp [channelsOf]), hs 1 (by simp [channelsOf]), hs 2 (by simp [channelsOf]), hs 3 (by simp [channelsOf])]

theorem same_valid (f g : File) (h : Valid f) (s : Same f g) : Valid g := by
  refine ⟨by rw [← s.w]; exact h.w_pos, by rw [← s.h]; exact h.h_pos, by rw [← s.ct, ← s.depth]; exact h.form, ?_, ?_,
    by rw [← s.ct, ← s.trns]; exact h.trns, by rw [← s.ct, ← s.trns]; exact h.trnsPal, by rw [← s.gama]; exact h.gama⟩
  · intro x y c hx hy hc
    rw [← s.w] at hx; rw [← s.h] at hy; rw [← s.ct] at hc
    rw [← s.sample x y c hx hy hc, ← s.depth]; exact h.samples x y c hx hy hc
  · intro h3
    rw [← s.ct] at h3
    rw [← s.palette]
    refine ⟨(h.palette h3).1, ?_⟩
    intro x y hx hy
    rw [← s.w] at hx; rw [← s.h] at hy
    rw [← s.sample x y 0 hx hy (by simp [channelsOf, h3])]; exact (h.palette h3).2 x y hx hy

theorem same_detect (f g : File) (s : Same f g) : detect g = detect f := by
  unfold detect; rw [s.iccp, s.srgb, s.gama]

/-- Writing followed by reading, for any relation between the values given and the levels stored. -/
theorem back {fl : ℚ → ℚ} (hfl : IsRounding fl) (lib : Lib) (hl : LibOk lib) (M : ℕ) (R : FV → ℕ → Prop) (b : Bundle (FV × FV × FV))
    (hd : (b.depth = 8 ∧ M = 255) ∨ (b.depth = 16 ∧ M = 65535))
    (hR : ∀ v, (v ∈ b.alpha.data ∨ ∃ p ∈ b.image.data, v = p.1 ∨ v = p.2.1 ∨ v = p.2.2) → ∃ n, toLevel fl M v = .ok n ∧ n ≤ M ∧ R v n)
    (hw : 0 < b.image.w) (hh : 0 < b.image.h) (hsz : b.image.w * b.image.h < 2147483648) (hwf : b.image.WF) (hwa : b.alpha.WF) (ch : Bool × Option ℕ)
    (hch : spaceChunk b.hint b.gamma = .ok ch) (hg : ∀ n, ch.2 = some n → 0 < n) :
    ∃ f b', writeRGB fl b = .ok f ∧ readRGB fl lib (lib.encode f) true = .ok b' ∧ b'.image.WF ∧ b'.alpha.WF ∧
      b'.image.w = b.image.w ∧ b'.image.h = b.image.h ∧
      (∀ x y, x < b.image.w → y < b.image.h → ∃ p r g bl, b.image.data[y * b.image.w + x]? = some p ∧ R p.1 r ∧ R p.2.1 g ∧ R p.2.2 bl ∧
        b'.image.data[y * b.image.w + x]? = some (.val (fl (r / M)), .val (fl (g / M)), .val (fl (bl / M)))) ∧
      (AlphaKept b → b'.alpha.w = b.image.w ∧ b'.alpha.h = b.image.h ∧ ∀ x y, x < b.image.w → y < b.image.h →
        ∃ a la, b.alpha.data[y * b.image.w + x]? = some a ∧ R a la ∧ b'.alpha.data[y * b.image.w + x]? = some (.val (fl (la / M)))) ∧
      (¬ AlphaKept b → b'.alpha = ⟨0, 0, []⟩) ∧ b'.depth = 8 ∧
      (b'.hint, b'.gamma) = hintOf fl (if ch.1 then (.srgb, 22 / 10) else match ch.2 with
        | some n => if |((n : ℚ) / 100000) - 1| < 1 / 100 then (.linear, 22 / 10)
            else if |((n : ℚ) / 100000) - 45455 / 100000| < 1 / 100 then (.srgb, 22 / 10) else (.gamma, 1 / ((n : ℚ) / 100000))
        | none => (.srgb, 22 / 10)) := by
  classical
  obtain ⟨f, hf, hv, hc, fw, fh, fi, fs, fg, fd, fa, fgr, hpx⟩ := write_ok M R b hd hR hw hh hsz hwf hwa ch hch hg
  obtain ⟨g, hgp, hs⟩ := hl f hv
  have hvg := same_valid f g hv hs
  obtain ⟨b', h1, h2, h3, h4, h5, h6, h7, h8, h9, h10⟩ := readImage_ok hfl asRGB lib _ g hgp hvg (by rw [← hs.complete]; exact hc) (by rw [← hs.w, ← hs.h, fw, fh]; exact hsz) true
  have gw : g.w = b.image.w := by rw [← hs.w, fw]
  have gh : g.h = b.image.h := by rw [← hs.h, fh]
  have gal : HasAlpha g ↔ AlphaKept b := by rw [← fa]; unfold HasAlpha; rw [← hs.ct, ← hs.trns]
  have ggr : ¬ IsGrey g := by intro h; apply fgr; unfold IsGrey at h ⊢; rw [hs.ct]; exact h
  have hshow : ∀ x y, x < b.image.w → y < b.image.h → shown g x y = shown f x y := fun x y hx hy =>
    same_shown f g hv hs x y (by rw [fw]; exact hx) (by rw [fh]; exact hy)
  rw [gw] at h2
  rw [gh] at h3
  rw [gw, gh] at h4 h5 h9
  refine ⟨f, b', hf, h1, ?_, h10, h2, h3, ?_, ?_, ?_, h8, ?_⟩
  · unfold Img.WF; rw [h9, h2, h3]
  · intro x y hx hy
    obtain ⟨p, r, gg, bl, q1, q2, q3, q4, q5, q6, q7, _⟩ := hpx x y (by rw [fw]; exact hx) (by rw [fh]; exact hy)
    rw [fw] at q1
    refine ⟨p, r, gg, bl, q1, q2, q3, q4, ?_⟩
    rw [h4 x y hx hy]
    unfold wantColour
    rw [if_neg ggr, hshow x y hx hy, q5, q6, q7]; rfl
  · intro hk
    rw [if_pos ⟨rfl, gal.2 hk⟩] at h5
    refine ⟨h5.1, h5.2.1, ?_⟩
    intro x y hx hy
    obtain ⟨p, r, gg, bl, _, _, _, _, _, _, _, q8⟩ := hpx x y (by rw [fw]; exact hx) (by rw [fh]; exact hy)
    obtain ⟨a, la, t1, t2, t3⟩ := q8 hk
    rw [fw] at t1
    refine ⟨a, la, t1, t2, ?_⟩
    rw [h5.2.2 x y hx hy, hshow x y hx hy, t3]
  · intro hk
    rw [if_neg (fun h => hk (gal.1 h.2))] at h5
    exact h5
  · rw [h6, h7, same_detect f g hs, Prod.mk.eta]
    congr 1
    unfold detect
    rw [fi, fs, fg]
    rfl

/-- Chunks written are never zero and never refused for gamma values between 1/1000 and 1000. -/
theorem chunk_ok (hint : Hint) (gamma : ℚ) (hg : hint = .gamma → 1 / 1000 ≤ gamma ∧ gamma ≤ 1000) :
    ∃ ch, spaceChunk hint gamma = .ok ch ∧ (∀ n, ch.2 = some n → 0 < n) ∧
      (hint = .sRGB → ch = (true, none)) ∧ (hint = .linear → ch = (false, some 100000)) ∧ (hint = .unknown → ch = (false, none)) ∧
      (hint = .gamma → ∃ n : ℕ, ch = (false, some n) ∧ |(n : ℚ) - 100000 / gamma| ≤ 1 / 2) := by
  cases hint with
  | sRGB => exact ⟨_, rfl, by simp, by simp, by simp, by simp, by simp⟩
  | unknown => exact ⟨_, rfl, by simp, by simp, by simp, by simp, by simp⟩
  | linear =>
    have : gamaChunk 1 = .ok (some 100000) := by
      unfold gamaChunk
      have : ⌊(100000 : ℚ) * 1 + 1 / 2⌋ = 100000 := by rw [Int.floor_eq_iff]; norm_num
      simp only [this]; norm_num; rfl
    refine ⟨(false, some 100000), ?_, by simp, by simp, by simp, by simp, by simp⟩
    simp [spaceChunk, this]
  | gamma =>
    obtain ⟨g1, g2⟩ := hg rfl
    have g0 : 0 < gamma := by linarith
    obtain ⟨n, hn⟩ : ∃ n : ℤ, n = ⌊100000 * (1 / gamma) + 1 / 2⌋ := ⟨_, rfl⟩
    have f1 := Int.floor_le (100000 * (1 / gamma) + 1 / 2)
    have f2 := Int.lt_floor_add_one (100000 * (1 / gamma) + 1 / 2)
    rw [← hn] at f1 f2
    have hlo : 100 ≤ 100000 * (1 / gamma) := by
      rw [mul_one_div, le_div_iff₀ g0]; linarith
    have hhi : 100000 * (1 / gamma) ≤ 100000000 := by
      rw [mul_one_div, div_le_iff₀ g0]; linarith
    have n1 : 16 ≤ n := by
      have : (99 : ℚ) < n := by linarith
      have : (99 : ℤ) < n := by exact_mod_cast this
      omega
    have n2 : n ≤ 625000000 := by
      have : (n : ℚ) < 100000001 := by linarith
      have : n < 100000001 := by exact_mod_cast this
      omega
    have hc : gamaChunk (1 / gamma) = .ok (some n.toNat) := by
      unfold gamaChunk
      simp only [← hn]
      rw [if_pos ⟨n1, n2⟩]
    refine ⟨(false, some n.toNat), ?_, ?_, by simp, by simp, by simp, ?_⟩
    · simp only [spaceChunk, if_neg g0.ne', hc, Res.ok_bind]
    · intro m hm; simp at hm; omega
    · intro _
      refine ⟨n.toNat, rfl, ?_⟩
      have : ((n.toNat : ℕ) : ℚ) = (n : ℚ) := by
        have : ((n.toNat : ℕ) : ℤ) = n := Int.toNat_of_nonneg (by omega)
        exact_mod_cast this
      rw [this, show (100000 : ℚ) / gamma = 100000 * (1 / gamma) by ring, abs_le]
      constructor <;> linarith

/-- A gamma value that is not taken for linear or sRGB on reading. -/
def Distinct (g : ℚ) : Prop := 11 / 1000 ≤ |1 / g - 1| ∧ 11 / 1000 ≤ |1 / g - 45455 / 100000|

/-- **C104 (partial).**  A non-empty image without NaN, with bit depth 8 or 16, is written, and reading the file gives an
image of the same size in which every component is the written one clamped to [0, 1] to within 0.52 quantisation
steps; the opacity comes back when the alpha image has the size of the image and is absent otherwise; the hints sRGB,
Linear and Gamma (away from 1 and 2.2) come back, the gamma value to within 1%.  Missing: the Unknown hint,
gamma near 1 or 2.2 and the bit depth do not come back (`C104_hint_lost`, `C104_depth_lost`). -/
theorem C104_roundtrip_partial {fl : ℚ → ℚ} (hfl : IsRounding fl) (lib : Lib) (hl : LibOk lib) (b : Bundle (FV × FV × FV))
    (hd : b.depth = 8 ∨ b.depth = 16) (hn : NoNaN b) (hw : 0 < b.image.w) (hh : 0 < b.image.h) (hsz : b.image.w * b.image.h < 2147483648) (hwf : b.image.WF) (hwa : b.alpha.WF)
    (hg : b.hint = .gamma → 1 / 1000 ≤ b.gamma ∧ b.gamma ≤ 1000) :
    ∃ f b', writeRGB fl b = .ok f ∧ readRGB fl lib (lib.encode f) true = .ok b' ∧
      b'.image.w = b.image.w ∧ b'.image.h = b.image.h ∧
      (∀ x y, x < b.image.w → y < b.image.h → ∃ p p', b.image.data[y * b.image.w + x]? = some p ∧
        b'.image.data[y * b.image.w + x]? = some p' ∧ Close (steps b.depth) p.1 p'.1 ∧ Close (steps b.depth) p.2.1 p'.2.1 ∧
        Close (steps b.depth) p.2.2 p'.2.2) ∧
      (AlphaKept b → b'.alpha.w = b.image.w ∧ b'.alpha.h = b.image.h ∧ ∀ x y, x < b.image.w → y < b.image.h →
        ∃ a a', b.alpha.data[y * b.image.w + x]? = some a ∧ b'.alpha.data[y * b.image.w + x]? = some a' ∧ Close (steps b.depth) a a') ∧
      (¬ AlphaKept b → b'.alpha = ⟨0, 0, []⟩) ∧
      (b.hint = .sRGB → b'.hint = .sRGB) ∧ (b.hint = .linear → b'.hint = .linear) ∧
      (b.hint = .gamma → Distinct b.gamma → b'.hint = .gamma ∧ |b'.gamma - b.gamma| ≤ b.gamma / 100) := by
  obtain ⟨M, hM⟩ : ∃ M : ℕ, (b.depth = 8 ∧ M = 255) ∨ (b.depth = 16 ∧ M = 65535) := by
    rcases hd with h | h
    · exact ⟨255, Or.inl ⟨h, rfl⟩⟩
    · exact ⟨65535, Or.inr ⟨h, rfl⟩⟩
  have hM' : M = 255 ∨ M = 65535 := by rcases hM with h | h <;> simp [h.2]
  have hsteps : steps b.depth = M := by rcases hM with h | h <;> simp [steps, h.1, h.2]
  obtain ⟨ch, hch, c0, c1, c2, c3, c4⟩ := chunk_ok b.hint b.gamma hg
  have hR : ∀ v, (v ∈ b.alpha.data ∨ ∃ p ∈ b.image.data, v = p.1 ∨ v = p.2.1 ∨ v = p.2.2) →
      ∃ n, toLevel fl M v = .ok n ∧ n ≤ M ∧ (fun (v : FV) (n : ℕ) => Close (steps b.depth) v (.val (fl ((n : ℚ) / M)))) v n := by
    intro v hv
    have : v ≠ .nan := by
      rcases hv with h | ⟨p, hp, rfl | rfl | rfl⟩
      · exact hn.2 v h
      · exact (hn.1 p hp).1
      · exact (hn.1 p hp).2.1
      · exact (hn.1 p hp).2.2
    cases v with
    | nan => exact absurd rfl this
    | val q =>
      obtain ⟨n, h1, h2, h3⟩ := toLevel_ok hfl M hM' q
      exact ⟨n, h1, h2, q, _, rfl, rfl, by rw [hsteps]; exact h3⟩
  obtain ⟨f, b', k1, k2, _, _, k3, k4, k5, k6, k7, k8, k9⟩ := back hfl lib hl M _ b hM hR hw hh hsz hwf hwa ch hch c0
  refine ⟨f, b', k1, k2, k3, k4, ?_, ?_, k7, ?_, ?_, ?_⟩
  · intro x y hx hy
    obtain ⟨p, r, g, bl, q1, q2, q3, q4, q5⟩ := k5 x y hx hy
    exact ⟨p, _, q1, q5, q2, q3, q4⟩
  · intro hk
    obtain ⟨a1, a2, a3⟩ := k6 hk
    refine ⟨a1, a2, fun x y hx hy => ?_⟩
    obtain ⟨a, la, t1, t2, t3⟩ := a3 x y hx hy
    exact ⟨a, _, t1, t3, t2⟩
  · intro h
    rw [c1 h] at k9
    exact congrArg Prod.fst k9
  · intro h
    rw [c2 h] at k9
    have : |((100000 : ℕ) : ℚ) / 100000 - 1| < 1 / 100 := by norm_num
    simp only [if_pos this, Bool.false_eq_true, if_false] at k9
    exact congrArg Prod.fst k9
  · intro h hdist
    obtain ⟨g1, g2⟩ := hg h
    have g0 : 0 < b.gamma := by linarith
    obtain ⟨n, hn1, hn2⟩ := c4 h
    rw [hn1] at k9
    have hn3 : |(n : ℚ) / 100000 - 1 / b.gamma| ≤ 1 / 200000 := by
      rw [show (n : ℚ) / 100000 - 1 / b.gamma = (n - 100000 / b.gamma) / 100000 by ring, abs_div]
      rw [show |(100000 : ℚ)| = 100000 by norm_num]
      linarith
    have n1 : ¬ |((n : ℚ) / 100000) - 1| < 1 / 100 := by
      intro hc
      have h1 := hdist.1
      have := abs_sub_abs_le_abs_sub (1 / b.gamma - 1) ((n : ℚ) / 100000 - 1)
      rw [show (1 / b.gamma - 1) - ((n : ℚ) / 100000 - 1) = -((n : ℚ) / 100000 - 1 / b.gamma) by ring, abs_neg] at this
      linarith
    have n2 : ¬ |((n : ℚ) / 100000) - 45455 / 100000| < 1 / 100 := by
      intro hc
      have h1 := hdist.2
      have := abs_sub_abs_le_abs_sub (1 / b.gamma - 45455 / 100000) ((n : ℚ) / 100000 - 45455 / 100000)
      rw [show (1 / b.gamma - 45455 / 100000) - ((n : ℚ) / 100000 - 45455 / 100000) = -((n : ℚ) / 100000 - 1 / b.gamma) by ring, abs_neg] at this
      linarith
    simp only [if_neg n1, if_neg n2, Bool.false_eq_true, if_false] at k9
    refine ⟨congrArg Prod.fst k9, ?_⟩
    have hgv : b'.gamma = fl (1 / ((n : ℚ) / 100000)) := congrArg Prod.snd k9
    rw [hgv]
    have hlo : 100 ≤ 100000 / b.gamma := by rw [le_div_iff₀ g0]; linarith
    have hn2' := abs_le.1 hn2
    have hn0 : (99 : ℚ) ≤ n := by linarith
    have e0 : (1 : ℚ) / ((n : ℚ) / 100000) = 100000 / n := by field_simp
    have hng : (n : ℚ) * b.gamma ≤ 100000 + b.gamma / 2 ∧ 100000 - b.gamma / 2 ≤ (n : ℚ) * b.gamma := by
      have e : 100000 / b.gamma * b.gamma = 100000 := by field_simp
      constructor <;> nlinarith
    have e1 : |100000 / (n : ℚ) - b.gamma| ≤ b.gamma / 198 := by
      rw [show 100000 / (n : ℚ) - b.gamma = (100000 - n * b.gamma) / n by field_simp, abs_div, abs_of_pos (by linarith : (0 : ℚ) < n),
        div_le_iff₀ (by linarith), abs_le]
      constructor <;> nlinarith
    have e2 := hfl.rel (100000 / (n : ℚ))
    have hq0 : 0 ≤ 100000 / (n : ℚ) := div_nonneg (by norm_num) (by linarith)
    rw [abs_of_nonneg hq0] at e2
    rw [e0]
    generalize 100000 / (n : ℚ) = q at e1 e2 ⊢
    have e1' := abs_le.1 e1
    have e2' := abs_le.1 e2
    norm_num at e2'
    rw [abs_le]; constructor <;> linarith

theorem img_ext {P : Type} (i j : Img P) (h1 : i.w = j.w) (h2 : i.h = j.h) (h3 : i.data = j.data) : i = j := by
  obtain ⟨a, b, c⟩ := i
  obtain ⟨a', b', c'⟩ := j
  simp only at h1 h2 h3
  rw [h1, h2, h3]

theorem list_eq_of_grid {P : Type} (w h : Nat) (l l' : List P) (hl : l.length = h * w) (hl' : l'.length = h * w)
    (he : ∀ x y, x < w → y < h → l'[y * w + x]? = l[y * w + x]?) : l' = l := by
  apply List.ext_getElem?
  intro i
  by_cases hi : i < h * w
  · have hw : 0 < w := by
      rcases Nat.eq_zero_or_pos w with h0 | h0
      · rw [h0] at hi; simp at hi
      · exact h0
    have hx := Nat.mod_lt i hw
    have hy : i / w < h := by rw [Nat.div_lt_iff_lt_mul hw]; exact hi
    have e : i / w * w + i % w = i := by rw [Nat.mul_comm]; exact Nat.div_add_mod i w
    have := he (i % w) (i / w) hx hy
    rwa [e] at this
  · rw [List.getElem?_eq_none (by omega), List.getElem?_eq_none (by omega)]

/-- **C104 (partial).**  An image whose components already are levels of the chosen bit depth comes back unchanged, and so
does its alpha image if it has the image's size. -/
theorem C104_exact_partial {fl : ℚ → ℚ} (hfl : IsRounding fl) (lib : Lib) (hl : LibOk lib) (b : Bundle (FV × FV × FV)) (M : ℕ)
    (hd : (b.depth = 8 ∧ M = 255) ∨ (b.depth = 16 ∧ M = 65535))
    (hlev : ∀ v, (v ∈ b.alpha.data ∨ ∃ p ∈ b.image.data, v = p.1 ∨ v = p.2.1 ∨ v = p.2.2) → ∃ n : ℕ, n ≤ M ∧ v = .val (fl ((n : ℚ) / M)))
    (hw : 0 < b.image.w) (hh : 0 < b.image.h) (hsz : b.image.w * b.image.h < 2147483648) (hwf : b.image.WF) (hwa : b.alpha.WF)
    (hg : b.hint = .gamma → 1 / 1000 ≤ b.gamma ∧ b.gamma ≤ 1000) :
    ∃ f b', writeRGB fl b = .ok f ∧ readRGB fl lib (lib.encode f) true = .ok b' ∧ b'.image = b.image ∧
      (AlphaKept b → b'.alpha = b.alpha) := by
  have hM' : M = 255 ∨ M = 65535 := by rcases hd with h | h <;> simp [h.2]
  obtain ⟨ch, hch, c0, _⟩ := chunk_ok b.hint b.gamma hg
  have hR : ∀ v, (v ∈ b.alpha.data ∨ ∃ p ∈ b.image.data, v = p.1 ∨ v = p.2.1 ∨ v = p.2.2) →
      ∃ n, toLevel fl M v = .ok n ∧ n ≤ M ∧ (fun (v : FV) (n : ℕ) => v = .val (fl ((n : ℚ) / M))) v n := by
    intro v hv
    obtain ⟨n, h1, rfl⟩ := hlev v hv
    exact ⟨n, toLevel_exact hfl M hM' n h1, h1, rfl⟩
  obtain ⟨f, b', k1, k2, k3, k4, k5, k6, k7, k8, _⟩ := back hfl lib hl M _ b hd hR hw hh hsz hwf hwa ch hch c0
  refine ⟨f, b', k1, k2, ?_, ?_⟩
  · have : b'.image.data = b.image.data := by
      apply list_eq_of_grid b.image.w b.image.h _ _ hwf (by rw [k3, k5, k6])
      intro x y hx hy
      obtain ⟨p, r, g, bl, q1, q2, q3, q4, q5⟩ := k7 x y hx hy
      rw [q5, q1, ← q2, ← q3, ← q4]
    exact img_ext _ _ k5 k6 this
  · intro hk
    obtain ⟨a1, a2, a3⟩ := k8 hk
    have : b'.alpha.data = b.alpha.data := by
      apply list_eq_of_grid b.image.w b.image.h _ _ (by rw [hwa, hk.1, hk.2]) (by rw [k4, a1, a2])
      intro x y hx hy
      obtain ⟨a, la, t1, t2, t3⟩ := a3 x y hx hy
      rw [t3, t1, ← t2]
    rw [← hk.1] at a1
    rw [← hk.2] at a2
    exact img_ext _ _ a1 a2 this

/-- **C104.**  Empty images and bit depths other than 8 and 16 are refused. -/
theorem C104_write_refuses (fl : ℚ → ℚ) (b : Bundle (FV × FV × FV)) :
    (b.image.w = 0 ∨ b.image.h = 0 → writeRGB fl b = .throw) ∧ (b.depth ≠ 8 → b.depth ≠ 16 → writeRGB fl b = .throw) := by
  constructor
  · intro h; unfold writeRGB; rw [if_pos h]
  · intro h1 h2
    unfold writeRGB
    split
    · rfl
    · simp only; rw [if_pos ⟨h1, h2⟩]

/-- **C104 (partial).**  No byte string whose image data libpng can read to the end makes the reader misbehave: it throws or
returns.  Missing: incomplete image data (`C104_truncated`) and
images of 2^31 pixels or more (`C104_overflow`). -/
theorem C104_safe_partial {fl : ℚ → ℚ} (hfl : IsRounding fl) (lib : Lib) (d : List Byte) (ra : Bool)
    (h : ∀ f, lib.parse d = some f → Valid f ∧ f.complete = true ∧ f.w * f.h < 2147483648) :
    readRGB fl lib d ra ≠ .ub ∧ readMono fl lib d ra ≠ .ub := by
  by_cases h1 : d.length < 8
  · have : readRaw lib d = .throw := by unfold readRaw; rw [if_pos h1]
    constructor <;> simp [readRGB, readMono, readImage, this]
  by_cases h2 : d.take 8 ≠ [137, 80, 78, 71, 13, 10, 26, 10]
  · have : readRaw lib d = .throw := by unfold readRaw; rw [if_neg h1, if_pos h2]
    constructor <;> simp [readRGB, readMono, readImage, this]
  cases hp : lib.parse d with
  | none =>
    have : readRaw lib d = .throw := by unfold readRaw; rw [if_neg h1, if_neg h2, hp]
    constructor <;> simp [readRGB, readMono, readImage, this]
  | some f =>
    obtain ⟨hv, hc, hsz⟩ := h f hp
    have hpng : IsPng lib d f := ⟨by omega, not_not.1 h2, hp⟩
    obtain ⟨b, hb, _⟩ := readImage_ok hfl asRGB lib d f hpng hv hc hsz ra
    obtain ⟨b', hb', _⟩ := readImage_ok hfl (asMono fl) lib d f hpng hv hc hsz ra
    exact ⟨by unfold readRGB; rw [hb]; simp, by unfold readMono; rw [hb']; simp⟩

/-- **C104 (partial).**  A mono image is written with its value in all three channels and the mono reader gives it back,
clamped to [0, 1], to within 0.56 quantisation steps. -/
theorem C104_mono_partial {fl : ℚ → ℚ} (hfl : IsRounding fl) (lib : Lib) (hl : LibOk lib) (b : Bundle FV)
    (hd : b.depth = 8 ∨ b.depth = 16) (hn : ∀ v ∈ b.image.data, v ≠ .nan) (hna : ∀ v ∈ b.alpha.data, v ≠ .nan)
    (hw : 0 < b.image.w) (hh : 0 < b.image.h) (hsz : b.image.w * b.image.h < 2147483648) (hwf : b.image.WF) (hwa : b.alpha.WF)
    (hg : b.hint = .gamma → 1 / 1000 ≤ b.gamma ∧ b.gamma ≤ 1000) :
    ∃ f b', writeMono fl b = .ok f ∧ readMono fl lib (lib.encode f) true = .ok b' ∧
      b'.image.w = b.image.w ∧ b'.image.h = b.image.h ∧
      ∀ x y, x < b.image.w → y < b.image.h → ∃ q v, b.image.data[y * b.image.w + x]? = some (.val q) ∧
        b'.image.data[y * b.image.w + x]? = some (.val v) ∧ |v - min 1 (max 0 q)| ≤ 14 / 25 / steps b.depth := by
  obtain ⟨M, hM⟩ : ∃ M : ℕ, (b.depth = 8 ∧ M = 255) ∨ (b.depth = 16 ∧ M = 65535) := by
    rcases hd with h | h
    · exact ⟨255, Or.inl ⟨h, rfl⟩⟩
    · exact ⟨65535, Or.inr ⟨h, rfl⟩⟩
  have hM' : M = 255 ∨ M = 65535 := by rcases hM with h | h <;> simp [h.2]
  have hM0 : (0 : ℚ) < M := by rcases hM' with rfl | rfl <;> norm_num
  have hM1 : (M : ℚ) ≤ 65535 := by rcases hM' with rfl | rfl <;> norm_num
  have hsteps : steps b.depth = M := by rcases hM with h | h <;> simp [steps, h.1, h.2]
  obtain ⟨ch, hch, c0, _⟩ := chunk_ok b.hint b.gamma hg
  set b3 : Bundle (FV × FV × FV) := { b with image := ⟨b.image.w, b.image.h, b.image.data.map fun v => (v, v, v)⟩ } with hb3
  have hR : ∀ v, (v ∈ b3.alpha.data ∨ ∃ p ∈ b3.image.data, v = p.1 ∨ v = p.2.1 ∨ v = p.2.2) →
      ∃ n, toLevel fl M v = .ok n ∧ n ≤ M ∧ (fun (v : FV) (n : ℕ) => n ≤ M ∧ ∃ q, v = .val q ∧ |fl ((n : ℚ) / M) - min 1 (max 0 q)| ≤ 13 / 25 / M) v n := by
    intro v hv
    have : v ≠ .nan := by
      rcases hv with h | ⟨p, hp, h⟩
      · exact hna v h
      · obtain ⟨u, hu, rfl⟩ := List.mem_map.1 hp
        have : v = u := by simpa using h
        rw [this]; exact hn u hu
    cases v with
    | nan => exact absurd rfl this
    | val q =>
      obtain ⟨n, h1, h2, h3⟩ := toLevel_ok hfl M hM' q
      exact ⟨n, h1, h2, h2, q, rfl, h3⟩
  obtain ⟨f, hf, hv, hc, fw, fh, _, _, _, _, _, fgr, hpx⟩ := write_ok M _ b3 hM hR hw hh hsz (by simp [Img.WF, hb3]; exact hwf) hwa ch hch c0
  obtain ⟨g, hgp, hs⟩ := hl f hv
  obtain ⟨b', h1, h2, h3, h4⟩ := C104_read_mono_partial hfl lib _ g hgp (same_valid f g hv hs) (by rw [← hs.complete]; exact hc) (by rw [← hs.w, ← hs.h, fw, fh]; exact hsz) true
  have gw : g.w = b.image.w := by rw [← hs.w, fw]
  have gh : g.h = b.image.h := by rw [← hs.h, fh]
  refine ⟨f, b', hf, h1, by rw [h2, gw], by rw [h3, gh], ?_⟩
  intro x y hx hy
  obtain ⟨v, hv1, hv2, _⟩ := h4 x y (by rw [gw]; exact hx) (by rw [gh]; exact hy)
  rw [gw] at hv1
  rw [same_shown f g hv hs x y (by rw [fw]; exact hx) (by rw [fh]; exact hy)] at hv2
  obtain ⟨p, r, gg, bl, q1, ⟨r1, r2, r3, r4⟩, ⟨g1, g2, g3, g4⟩, ⟨l1, l2, l3, l4⟩, q5, q6, q7, _⟩ := hpx x y (by rw [fw]; exact hx) (by rw [fh]; exact hy)
  rw [fw] at q1
  have q1' : (b.image.data.map fun v => (v, v, v))[y * b.image.w + x]? = some p := q1
  rw [List.getElem?_map] at q1'
  cases hu : b.image.data[y * b.image.w + x]? with
  | none => rw [hu] at q1'; simp at q1'
  | some u =>
    rw [hu] at q1'
    have hp : p = (u, u, u) := by simpa using q1'.symm
    rw [hp] at r3 g3 l3
    simp only at r3 g3 l3
    have eg : g2 = r2 := by rw [r3] at g3; injection g3 with h; exact h.symm
    have el : l2 = r2 := by rw [r3] at l3; injection l3 with h; exact h.symm
    rw [eg] at g4
    rw [el] at l4
    refine ⟨r2, v, by rw [r3], hv1, ?_⟩
    rw [hsteps]
    rw [q5, q6, q7] at hv2
    have near : ∀ n : ℕ, n ≤ M → |fl ((n : ℚ) / M) - (n : ℚ) / M| ≤ 1 / 2 ^ 24 := by
      intro n hnM
      have := hfl.rel ((n : ℚ) / M)
      rw [abs_of_nonneg (show (0 : ℚ) ≤ (n : ℚ) / M by positivity)] at this
      refine this.trans ?_
      have : (n : ℚ) / M ≤ 1 := div_le_one_of_le₀ (by exact_mod_cast hnM) hM0.le
      gcongr
    have n1 := abs_le.1 (near r r1)
    have n2 := abs_le.1 (near gg g1)
    have n3 := abs_le.1 (near bl l1)
    have m1 := abs_le.1 r4
    have m2 := abs_le.1 g4
    have m3 := abs_le.1 l4
    have mv := abs_le.1 hv2
    have d2 : (1 : ℚ) / 2 ^ 24 ≤ (1 / 256) / M := by
      rw [div_le_div_iff₀ (by norm_num) hM0]; linarith
    have e1 : (14 : ℚ) / 25 / M = 13 / 25 / M + (256 / 25) * ((1 / 256) / M) := by ring
    have d3 : (1 : ℚ) / 2 ^ 21 = 8 * (1 / 2 ^ 24) := by norm_num
    rw [d3] at mv
    rw [e1]
    have hpos : (0 : ℚ) ≤ 1 / 2 ^ 24 := by norm_num
    rw [abs_le]
    constructor <;> linarith

/-! ## What does not hold -/

/-- **C104 (violated).**  A file whose image data end early makes the reader jump over live objects: undefined behaviour. -/
theorem C104_truncated (fl : ℚ → ℚ) (lib : Lib) (d : List Byte) (f : File) (hf : IsPng lib d f) (hc : f.complete = false) (ra : Bool) :
    readRGB fl lib d ra = .ub := by
  have hr : readRaw lib d = .ub := by
    unfold readRaw
    rw [if_neg (by have := hf.long; omega), if_neg (by rw [hf.sig]; simp), hf.parse]
    unfold decodeFile; simp [hc]
  unfold readRGB readImage
  rw [hr]; rfl

/-- **C104 (violated).**  A complete file of 2^31 pixels or more makes the product of width and height overflow `int`:
undefined behaviour. -/
theorem C104_overflow (fl : ℚ → ℚ) (lib : Lib) (d : List Byte) (f : File) (hf : IsPng lib d f) (hc : f.complete = true)
    (hsz : 2147483648 ≤ f.w * f.h) (ra : Bool) : readRGB fl lib d ra = .ub := by
  obtain ⟨p, hp, e1, e2⟩ : ∃ p, readRaw lib d = .ok p ∧ p.w = f.w ∧ p.h = f.h := by
    unfold readRaw
    rw [if_neg (by have := hf.long; omega), if_neg (by rw [hf.sig]; simp), hf.parse]
    simp only [decodeFile, hc, if_true]
    exact ⟨_, rfl, rfl, rfl⟩
  have h2 : i32 ((p.w : Int) * p.h) = .ub := by
    unfold i32
    rw [if_neg]
    rw [e1, e2]
    rintro ⟨_, h2⟩
    have : f.w * f.h < 2147483648 := by exact_mod_cast h2
    omega
  unfold readRGB readImage
  rw [hp, Res.ok_bind, h2, Res.ub_bind]

/-- **C104 (violated).**  Writing an image containing a NaN converts NaN to an integer: undefined behaviour. -/
theorem C104_nan (fl : ℚ → ℚ) : writeRGB fl ⟨⟨1, 1, [(.nan, .val 0, .val 0)]⟩, ⟨0, 0, []⟩, .sRGB, 1, 8⟩ = .ub := by
  simp [writeRGB, spaceChunk, mapRes, grid, pixelLevels, pixelAt, toLevel, List.range_succ]

/-- **C104 (violated).**  An image with unknown colour space, or with gamma 2.2, comes back as sRGB. -/
theorem C104_hint_lost {fl : ℚ → ℚ} (hfl : IsRounding fl) (lib : Lib) (hl : LibOk lib) (b : Bundle (FV × FV × FV))
    (hd : b.depth = 8 ∨ b.depth = 16) (hn : NoNaN b) (hw : 0 < b.image.w) (hh : 0 < b.image.h) (hsz : b.image.w * b.image.h < 2147483648) (hwf : b.image.WF) (hwa : b.alpha.WF)
    (hg : b.hint = .unknown ∨ (b.hint = .gamma ∧ b.gamma = 22 / 10)) :
    ∃ f b', writeRGB fl b = .ok f ∧ readRGB fl lib (lib.encode f) true = .ok b' ∧ b'.hint = .sRGB := by
  obtain ⟨M, hM⟩ : ∃ M : ℕ, (b.depth = 8 ∧ M = 255) ∨ (b.depth = 16 ∧ M = 65535) := by
    rcases hd with h | h
    · exact ⟨255, Or.inl ⟨h, rfl⟩⟩
    · exact ⟨65535, Or.inr ⟨h, rfl⟩⟩
  have hM' : M = 255 ∨ M = 65535 := by rcases hM with h | h <;> simp [h.2]
  obtain ⟨ch, hch, c0, c1, c2, c3, c4⟩ := chunk_ok b.hint b.gamma (by
    intro h
    rcases hg with hg | hg
    · rw [hg] at h; simp at h
    · rw [hg.2]; norm_num)
  have hR : ∀ v, (v ∈ b.alpha.data ∨ ∃ p ∈ b.image.data, v = p.1 ∨ v = p.2.1 ∨ v = p.2.2) →
      ∃ n, toLevel fl M v = .ok n ∧ n ≤ M ∧ (fun (_ : FV) (_ : ℕ) => True) v n := by
    intro v hv
    have : v ≠ .nan := by
      rcases hv with h | ⟨p, hp, rfl | rfl | rfl⟩
      · exact hn.2 v h
      · exact (hn.1 p hp).1
      · exact (hn.1 p hp).2.1
      · exact (hn.1 p hp).2.2
    cases v with
    | nan => exact absurd rfl this
    | val q => obtain ⟨n, h1, h2, _⟩ := toLevel_ok hfl M hM' q; exact ⟨n, h1, h2, trivial⟩
  obtain ⟨f, b', k1, k2, _, _, _, _, _, _, _, _, k9⟩ := back hfl lib hl M _ b hM hR hw hh hsz hwf hwa ch hch c0
  refine ⟨f, b', k1, k2, ?_⟩
  rcases hg with h | ⟨h, h22⟩
  · rw [c3 h] at k9
    exact congrArg Prod.fst k9
  · obtain ⟨n, hn1, hn2⟩ := c4 h
    rw [hn1] at k9
    rw [h22] at hn2
    have hn2' := abs_le.1 hn2
    norm_num at hn2'
    have n1 : ¬ |((n : ℚ) / 100000) - 1| < 1 / 100 := by
      rw [abs_lt]; rintro ⟨h1, _⟩; linarith
    have n2 : |((n : ℚ) / 100000) - 45455 / 100000| < 1 / 100 := by
      rw [abs_lt]; constructor <;> linarith
    simp only [if_neg n1, if_pos n2, Bool.false_eq_true, if_false] at k9
    exact congrArg Prod.fst k9

/-- **C104 (violated).**  The bit depth of the file is not reported: every image read claims 8 bits. -/
theorem C104_depth_lost {fl : ℚ → ℚ} (hfl : IsRounding fl) (lib : Lib) (d : List Byte) (f : File) (hf : IsPng lib d f)
    (h : Valid f) (hcomp : f.complete = true) (hsz : f.w * f.h < 2147483648) (ra : Bool) : ∃ b, readRGB fl lib d ra = .ok b ∧ b.depth = 8 := by
  obtain ⟨b, h1, _, _, _, _, _, _, h8, _⟩ := readImage_ok hfl asRGB lib d f hf h hcomp hsz ra
  exact ⟨b, h1, h8⟩

/-- The property in full: reading never misbehaves, writing never misbehaves, and what was said about the image (colour
space and bit depth) comes back. -/
def C104_full : Prop := ∀ fl : ℚ → ℚ, IsRounding fl → ∀ lib, LibOk lib →
  (∀ d ra, readRGB fl lib d ra ≠ .ub) ∧ (∀ b, b.image.WF → b.alpha.WF → writeRGB fl b ≠ .ub) ∧
  ∀ b f b', b.image.WF → b.alpha.WF → writeRGB fl b = .ok f → readRGB fl lib (lib.encode f) true = .ok b' →
    b'.hint = b.hint ∧ b'.depth = b.depth

/-! ## A libpng with this behaviour exists -/

/-- Everything in a file, as lists. -/
abbrev Pack := (ℕ × ℕ × ℕ × ℕ) × List (List ℕ) × Option (List ℕ) × List ℕ × (Bool × Bool × Option ℕ × Bool)

def pack (f : File) : Pack := ((f.w, f.h, f.ct, f.depth), f.palette, f.trns,
  (List.range (f.h * f.w * 4)).map (fun i => f.sample (i / 4 % f.w) (i / 4 / f.w) (i % 4)), (f.iccp, f.srgb, f.gama, f.complete))

def unpack (p : Pack) : File :=
  { w := p.1.1, h := p.1.2.1, ct := p.1.2.2.1, depth := p.1.2.2.2, palette := p.2.1, trns := p.2.2.1
    sample := fun x y c => (p.2.2.2.1[(y * p.1.1 + x) * 4 + c]?).getD 0
    iccp := p.2.2.2.2.1, srgb := p.2.2.2.2.2.1, gama := p.2.2.2.2.2.2.1, complete := p.2.2.2.2.2.2.2 }

/-- A toy PNG codec: the signature followed by a unary code. -/
def toyLib : Lib where
  parse d := (Encodable.decode (α := Pack) (d.length - 8)).map unpack
  encode f := [137, 80, 78, 71, 13, 10, 26, 10] ++ List.replicate (Encodable.encode (pack f)) 0

theorem toy_parse (f : File) : IsPng toyLib (toyLib.encode f) (unpack (pack f)) := by
  refine ⟨?_, ?_, ?_⟩
  · simp [toyLib]
  · simp [toyLib]
  · simp only [toyLib]
    have e : ([137, 80, 78, 71, 13, 10, 26, 10] ++ List.replicate (Encodable.encode (pack f)) (0 : Byte)).length - 8 =
        Encodable.encode (pack f) := by
      rw [List.length_append, List.length_replicate]
      exact Nat.add_sub_cancel_left 8 _
    rw [e]
    rw [Encodable.encodek]; rfl

theorem toyLib_ok : LibOk toyLib := by
  intro f hv
  refine ⟨_, toy_parse f, ⟨rfl, rfl, rfl, rfl, rfl, rfl, ?_, rfl, rfl, rfl, rfl⟩⟩
  intro x y c hx hy hc
  have hc4 : c < 4 := by
    refine lt_of_lt_of_le hc ?_
    unfold channelsOf; split_ifs <;> omega
  have h1 := pixel_index_lt f.w f.h 4 x y c hx hy hc4
  have e1 : ((y * f.w + x) * 4 + c) / 4 = y * f.w + x := by omega
  have e2 : ((y * f.w + x) * 4 + c) % 4 = c := by omega
  have hw : 0 < f.w := by omega
  have e3 : (y * f.w + x) / f.w = y := by rw [Nat.mul_comm, Nat.mul_add_div hw, Nat.div_eq_of_lt hx, Nat.add_zero]
  have e4 : (y * f.w + x) % f.w = x := by rw [Nat.mul_comm, Nat.mul_add_mod, Nat.mod_eq_of_lt hx]
  show f.sample x y c = (((List.range (f.h * f.w * 4)).map (fun i => f.sample (i / 4 % f.w) (i / 4 / f.w) (i % 4)))[(y * f.w + x) * 4 + c]?).getD 0
  rw [List.getElem?_map, List.getElem?_range (by rw [Nat.mul_comm f.h]; exact h1)]
  simp [e1, e2, e3, e4]

theorem C104_violated : ¬ C104_full := by
  intro h
  obtain ⟨_, h2, _⟩ := h float32 float32_exists toyLib toyLib_ok
  exact h2 _ (by simp [Img.WF]) (by simp [Img.WF]) (C104_nan float32)

/-- Each of the three parts fails on its own. -/
theorem C104_violated_read : ∃ d, readRGB float32 toyLib d true = .ub := by
  let f : File := ⟨1, 1, 2, 8, [], none, fun _ _ _ => 0, false, false, none, false⟩
  exact ⟨_, C104_truncated float32 toyLib _ _ (toy_parse f) rfl true⟩

theorem C104_violated_hint : ∃ b f b', b.image.WF ∧ writeRGB float32 b = .ok f ∧
    readRGB float32 toyLib (toyLib.encode f) true = .ok b' ∧ b'.hint ≠ b.hint := by
  obtain ⟨f, b', h1, h2, h3⟩ := C104_hint_lost float32_exists toyLib toyLib_ok
    ⟨⟨1, 1, [(.val 0, .val 0, .val 0)]⟩, ⟨0, 0, []⟩, .unknown, 1, 8⟩ (Or.inl rfl) ⟨by simp, by simp⟩ (by norm_num) (by norm_num) (by norm_num)
    (by simp [Img.WF]) (by simp [Img.WF]) (Or.inl rfl)
  exact ⟨_, f, b', by simp [Img.WF], h1, h2, by rw [h3]; decide⟩

/-- A pixel beyond the range with an alpha image meets the hypotheses of the round trip. -/
example : ∃ f b', writeRGB float32 ⟨⟨1, 1, [(.val (1 / 3), .val 7, .val (-2))]⟩, ⟨1, 1, [.val (1 / 2)]⟩, .gamma, 18 / 10, 16⟩ = .ok f ∧
    readRGB float32 toyLib (toyLib.encode f) true = .ok b' ∧ b'.hint = .gamma ∧ b'.alpha.w = 1 := by
  obtain ⟨f, b', h1, h2, _, _, _, h6, _, _, _, h10⟩ := C104_roundtrip_partial float32_exists toyLib toyLib_ok
    ⟨⟨1, 1, [(.val (1 / 3), .val 7, .val (-2))]⟩, ⟨1, 1, [.val (1 / 2)]⟩, .gamma, 18 / 10, 16⟩ (Or.inr rfl) ⟨by simp, by simp⟩
    (by norm_num) (by norm_num) (by norm_num) (by simp [Img.WF]) (by simp [Img.WF]) (fun _ => by norm_num)
  exact ⟨f, b', h1, h2, (h10 rfl ⟨by norm_num [abs_of_neg], by norm_num [abs_of_pos]⟩).1, (h6 ⟨rfl, rfl⟩).1⟩

/-- A 2×1 palette image with transparency meets the hypotheses of `C104_read_partial`; pixel 1 is the half-transparent entry. -/
example : ∃ b, readRGB float32 toyLib (toyLib.encode ⟨2, 1, 3, 2, [[255, 0, 0], [0, 255, 51]], some [255, 0], fun x _ _ => x, false, true, none, true⟩) true
    = .ok b ∧ b.image.data[1]? = some (.val (float32 0), .val (float32 1), .val (float32 (1 / 5))) ∧ b.alpha.data[1]? = some (.val (float32 0)) := by
  let f : File := ⟨2, 1, 3, 2, [[255, 0, 0], [0, 255, 51]], some [255, 0], fun x _ _ => x, false, true, none, true⟩
  have hv : Valid f := by
    refine ⟨by norm_num [f], by norm_num [f], by simp [f], ?_, ?_, by simp [f], ?_, by simp [f]⟩
    · intro x y c hx hy _
      show x < 2 ^ 2
      have : x < 2 := hx
      omega
    · intro _
      refine ⟨?_, fun x y hx _ => hx⟩
      intro e he
      simp only [f, List.mem_cons, List.not_mem_nil, or_false] at he
      rcases he with rfl | rfl
      · exact ⟨_, _, _, rfl, by norm_num, by norm_num, by norm_num⟩
      · exact ⟨_, _, _, rfl, by norm_num, by norm_num, by norm_num⟩
    · intro _ t ht v hvv
      simp only [f, Option.some.injEq] at ht
      subst ht
      simp at hvv; omega
  obtain ⟨g, hg, hs⟩ := toyLib_ok f hv
  obtain ⟨b, h1, h2, h3, h4, h5⟩ := C104_read_partial float32_exists toyLib _ g hg (same_valid f g hv hs) (by rw [← hs.complete]) (by rw [← hs.w, ← hs.h]; norm_num [f]) true
  have hsh := same_shown f g hv hs 1 0 (by norm_num [f]) (by norm_num [f])
  have hgw : g.w = 2 := hs.w.symm
  have hgh : g.h = 1 := hs.h.symm
  rw [if_pos ⟨rfl, by left; rw [← hs.trns]; rfl⟩] at h5
  have p1 := h4 1 0 (by omega) (by omega)
  have a1 := h5.2.2 1 0 (by omega) (by omega)
  rw [hsh] at p1 a1
  simp only [Nat.zero_mul, Nat.zero_add] at p1 a1
  refine ⟨b, h1, ?_, ?_⟩
  · rw [p1]; norm_num [shown, f]
  · rw [a1]; norm_num [shown, f]

end Huira.ImageIO.Png
