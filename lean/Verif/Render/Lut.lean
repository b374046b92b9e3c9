import Mathlib.Data.Real.Basic
import Mathlib.Data.Finset.Lattice.Fold
import Mathlib.Tactic.Linarith
import Mathlib.Tactic.Ring
import Mathlib.Tactic.Positivity
set_option linter.unusedSimpArgs false
/-!
# C52: truncation of the point-spread function

Models `build_radius_lut` and `lookup_effective_radius` (`include/huira_impl/render/psf_lut.ipp` lines 45-139) and
`RenderItem::max_irradiance` / `interpolate_irradiances` (`renderer.ipp` lines 599-622). Values are exact reals.
-/
namespace Huira.Lut

/-- A PSF kernel: size and value of each channel at (kx, ky). -/
structure Kern (n : Nat) where
  w : Nat
  h : Nat
  val : Nat → Nat → Fin n → ℝ

noncomputable section
open Classical

/-- `conversion[c] = (e > 0) ? area / e : 0`, lines 63-68. -/
def conversion {n : Nat} (area : ℝ) (e : Fin n → ℝ) (c : Fin n) : ℝ := if e c > 0 then area / e c else 0

/-- `scan_pixel`, lines 71-80: fold the channels of one kernel pixel into the running maximum. -/
def scanPixel {n : Nat} (k : Kern n) (conv : Fin n → ℝ) (m : ℝ) (p : Nat × Nat) : ℝ :=
  if p.1 ≥ k.w ∨ p.2 ≥ k.h then m
  else (List.finRange n).foldl (fun m c => max m (k.val p.1 p.2 c * conv c)) m

/-- The pixels scanned for ring `r`, lines 85-101: top and bottom rows with `kx` in [lo, hi], left and right columns with
`ky` strictly between. -/
def ringPixels (R r : Nat) : List (Nat × Nat) :=
  let lo := R - r
  let hi := R + r
  ((List.range (hi + 1 - lo)).flatMap fun a => [(lo + a, lo), (lo + a, hi)]) ++
  ((List.range (hi - (lo + 1))).flatMap fun a => [(lo, lo + 1 + a), (hi, lo + 1 + a)])

/-- `max_sensitivity` of ring `r`. -/
def ringMax {n : Nat} (k : Kern n) (conv : Fin n → ℝ) (R r : Nat) : ℝ :=
  (ringPixels R r).foldl (scanPixel k conv) 0

/-- The loop over radii, lines 83-107, from radius `r` for `m` more rings. -/
def buildFrom {n : Nat} (k : Kern n) (conv : Fin n → ℝ) (R : Nat) (thr : ℝ) : Nat → Nat → List (Nat × ℝ)
  | _, 0 => []
  | r, m + 1 =>
    let mx := ringMax k conv R r
    (if mx > 0 then [(r, thr / mx)] else []) ++ buildFrom k conv R thr (r + 1) m

/-- `build_radius_lut`, lines 45-110 (a non-positive radius gives the empty table). -/
def buildLut {n : Nat} (k : Kern n) (R : Int) (area : ℝ) (e : Fin n → ℝ) (thr : ℝ) : List (Nat × ℝ) :=
  if R ≤ 0 then [] else buildFrom k (conversion area e) R.toNat thr 1 R.toNat

/-- The loop of `lookup_effective_radius`, lines 130-136, on the table read from its back. -/
def lookupRev (irr : ℝ) (minR : Nat) : List (Nat × ℝ) → Nat
  | [] => minR
  | (r, m) :: rest => if irr ≥ m then max r minR else lookupRev irr minR rest

/-- `lookup_effective_radius`, lines 122-139. -/
def lookup (lut : List (Nat × ℝ)) (irr : ℝ) (minR : Nat) : Nat := lookupRev irr minR lut.reverse

/-- Chebyshev distance of kernel pixel (kx, ky) from the centre (R, R). -/
def dist (R kx ky : Nat) : Nat := max (kx - R + (R - kx)) (ky - R + (R - ky))

/-! ### Lemmas -/

theorem mem_ring {R r kx ky : Nat} (hr : r ≤ R) (h1 : 1 ≤ r) : (kx, ky) ∈ ringPixels R r ↔ dist R kx ky = r := by
  unfold ringPixels dist
  simp only [List.mem_append, List.mem_flatMap, List.mem_range, List.mem_cons, Prod.mk.injEq, List.not_mem_nil,
    or_false]
  constructor
  · rintro (⟨a, ha, h | h⟩ | ⟨a, ha, h | h⟩) <;> omega
  · intro h
    by_cases hy : ky = R - r ∨ ky = R + r
    · left
      refine ⟨kx - (R - r), by omega, ?_⟩
      rcases hy with hy | hy
      · left; omega
      · right; omega
    · right
      refine ⟨ky - (R - r + 1), by omega, ?_⟩
      by_cases hx : kx = R - r
      · left; omega
      · right; omega

theorem foldl_max_ge {α : Type} (f : α → ℝ) (l : List α) (m : ℝ) :
    m ≤ l.foldl (fun m a => max m (f a)) m ∧ ∀ a ∈ l, f a ≤ l.foldl (fun m a => max m (f a)) m := by
  induction l generalizing m with
  | nil => simp
  | cons b t ih =>
    obtain ⟨h1, h2⟩ := ih (max m (f b))
    refine ⟨le_trans (le_max_left _ _) h1, ?_⟩
    intro a ha
    rcases List.mem_cons.1 ha with rfl | ha
    · exact le_trans (le_max_right _ _) h1
    · exact h2 a ha

theorem foldl_max_att {α : Type} (f : α → ℝ) (l : List α) (m : ℝ) :
    l.foldl (fun m a => max m (f a)) m = m ∨ ∃ a ∈ l, l.foldl (fun m a => max m (f a)) m = f a := by
  induction l generalizing m with
  | nil => simp
  | cons b t ih =>
    rcases ih (max m (f b)) with h | ⟨a, ha, h⟩
    · rcases max_choice m (f b) with h' | h'
      · left; simp only [List.foldl_cons]; rw [h, h']
      · right; exact ⟨b, List.mem_cons_self .., by simp only [List.foldl_cons]; rw [h, h']⟩
    · right; exact ⟨a, List.mem_cons_of_mem _ ha, h⟩

theorem scanPixel_ge {n : Nat} (k : Kern n) (conv : Fin n → ℝ) (m : ℝ) (p : Nat × Nat) :
    m ≤ scanPixel k conv m p ∧
    (p.1 < k.w → p.2 < k.h → ∀ c, k.val p.1 p.2 c * conv c ≤ scanPixel k conv m p) := by
  unfold scanPixel
  split
  · rename_i h
    refine ⟨le_refl _, fun h1 h2 => ?_⟩
    omega
  · have := foldl_max_ge (fun c => k.val p.1 p.2 c * conv c) (List.finRange n) m
    exact ⟨this.1, fun _ _ c => this.2 c (List.mem_finRange c)⟩

theorem fold_scan_ge {n : Nat} (k : Kern n) (conv : Fin n → ℝ) (l : List (Nat × Nat)) (m : ℝ) :
    m ≤ l.foldl (scanPixel k conv) m ∧
    ∀ p ∈ l, p.1 < k.w → p.2 < k.h → ∀ c, k.val p.1 p.2 c * conv c ≤ l.foldl (scanPixel k conv) m := by
  induction l generalizing m with
  | nil => simp
  | cons b t ih =>
    obtain ⟨h1, h2⟩ := ih (scanPixel k conv m b)
    have hb := scanPixel_ge k conv m b
    refine ⟨le_trans hb.1 h1, ?_⟩
    intro p hp hw hh c
    rcases List.mem_cons.1 hp with rfl | hp
    · exact le_trans (hb.2 hw hh c) h1
    · exact h2 p hp hw hh c

/-- Every table entry comes from a ring between `r` and `r + m - 1` with positive maximum, and vice versa. -/
theorem mem_buildFrom {n : Nat} (k : Kern n) (conv : Fin n → ℝ) (R : Nat) (thr : ℝ) (r m q : Nat) (v : ℝ) :
    (q, v) ∈ buildFrom k conv R thr r m ↔
      r ≤ q ∧ q < r + m ∧ 0 < ringMax k conv R q ∧ v = thr / ringMax k conv R q := by
  induction m generalizing r with
  | zero => simp [buildFrom]; omega
  | succ m ih =>
    simp only [buildFrom, List.mem_append, ih]
    constructor
    · rintro (h | ⟨h1, h2, h3, h4⟩)
      · split at h
        · rename_i hp
          simp only [List.mem_singleton, Prod.mk.injEq] at h
          obtain ⟨rfl, rfl⟩ := h
          exact ⟨le_refl _, by omega, hp, rfl⟩
        · simp at h
      · exact ⟨by omega, by omega, h3, h4⟩
    · rintro ⟨h1, h2, h3, h4⟩
      by_cases hq : q = r
      · subst hq
        left
        rw [if_pos h3]
        simp [h4]
      · right
        exact ⟨by omega, by omega, h3, h4⟩

theorem sorted_buildFrom {n : Nat} (k : Kern n) (conv : Fin n → ℝ) (R : Nat) (thr : ℝ) (r m : Nat) :
    (buildFrom k conv R thr r m).Pairwise fun a b => a.1 < b.1 := by
  induction m generalizing r with
  | zero => simp [buildFrom]
  | succ m ih =>
    simp only [buildFrom]
    rw [List.pairwise_append]
    refine ⟨by split <;> simp, ih _, ?_⟩
    intro a ha b hb
    split at ha
    · simp only [List.mem_singleton] at ha
      subst ha
      obtain ⟨b1, b2⟩ := b
      have := (mem_buildFrom k conv R thr (r + 1) m b1 b2).1 hb
      show r < b1
      omega
    · simp at ha

/-- What the backward search guarantees on a table with decreasing radii. -/
theorem lookupRev_spec (irr : ℝ) (minR : Nat) (l : List (Nat × ℝ)) (hs : l.Pairwise fun a b => b.1 < a.1) :
    (∀ a ∈ l, lookupRev irr minR l < a.1 → irr < a.2) ∧ minR ≤ lookupRev irr minR l ∧
    (lookupRev irr minR l = minR ∨ ∃ a ∈ l, lookupRev irr minR l = a.1 ∧ a.2 ≤ irr) := by
  induction l with
  | nil => simp [lookupRev]
  | cons x t ih =>
    obtain ⟨r, m⟩ := x
    rw [List.pairwise_cons] at hs
    obtain ⟨i1, i2, i3⟩ := ih hs.2
    simp only [lookupRev]
    split
    · rename_i h
      refine ⟨?_, le_max_right _ _, ?_⟩
      · intro a ha hlt
        rcases List.mem_cons.1 ha with rfl | ha
        · exact absurd (le_max_left r minR) (by simpa using hlt)
        · have := hs.1 a ha
          exact absurd (le_max_left r minR) (by
            have : a.1 < r := this
            omega)
      · rcases max_choice r minR with h' | h'
        · right; exact ⟨(r, m), List.mem_cons_self .., h', h⟩
        · left; exact h'
    · rename_i h
      refine ⟨?_, i2, ?_⟩
      · intro a ha hlt
        rcases List.mem_cons.1 ha with rfl | ha
        · exact not_le.1 h
        · exact i1 a ha hlt
      · rcases i3 with h' | ⟨a, ha, h'⟩
        · left; exact h'
        · right; exact ⟨a, List.mem_cons_of_mem _ ha, h'⟩

theorem lookupRev_mono (i1 i2 : ℝ) (h : i1 ≤ i2) (minR : Nat) (l : List (Nat × ℝ))
    (hs : l.Pairwise fun a b => b.1 < a.1) : lookupRev i1 minR l ≤ lookupRev i2 minR l := by
  induction l with
  | nil => exact le_refl _
  | cons x t ih =>
    obtain ⟨r, m⟩ := x
    rw [List.pairwise_cons] at hs
    have ih := ih hs.2
    simp only [lookupRev]
    by_cases h1 : i1 ≥ m
    · rw [if_pos h1, if_pos (le_trans h1 h)]
    · rw [if_neg h1]
      split
      · rcases (lookupRev_spec i1 minR t hs.2).2.2 with h' | ⟨a, ha, h', _⟩
        · rw [h']; exact le_max_right _ _
        · have : a.1 < r := hs.1 a ha
          rw [h']
          exact le_trans this.le (le_max_left _ _)
      · exact ih

theorem buildLut_rev_sorted {n : Nat} (k : Kern n) (R : Int) (area : ℝ) (e : Fin n → ℝ) (thr : ℝ) :
    (buildLut k R area e thr).reverse.Pairwise fun a b => b.1 < a.1 := by
  rw [List.pairwise_reverse]
  unfold buildLut
  split
  · exact List.Pairwise.nil
  · exact sorted_buildFrom ..

/-! ### Theorems -/

/-- Photons per second a kernel pixel receives in channel `c` from a source of irradiance `irr` (specification: power =
irradiance * area * kernel weight, divided by the energy of a photon). -/
def photons {n : Nat} (k : Kern n) (area : ℝ) (e : Fin n → ℝ) (irr : Fin n → ℝ) (kx ky : Nat) (c : Fin n) : ℝ :=
  irr c * area * k.val kx ky c / e c

/-- **C52, bound.** For every kernel of radius `R`, threshold, and source whose irradiance is between 0 and `irrMax` in
each channel: a kernel pixel that lies outside the radius looked up for `irrMax` would receive fewer photons than the
threshold, in every channel with a positive photon energy. -/
theorem C52_truncation_bound {n : Nat} (k : Kern n) (R minR : Nat) (area thr : ℝ) (e irr : Fin n → ℝ) (irrMax : ℝ)
    (ht : 0 < thr) (h0 : ∀ c, 0 ≤ irr c) (hm : ∀ c, irr c ≤ irrMax) (kx ky : Nat) (hx : kx ≤ 2 * R) (hy : ky ≤ 2 * R)
    (hw : kx < k.w) (hh : ky < k.h)
    (hout : lookup (buildLut k R area e thr) irrMax minR < dist R kx ky) (c : Fin n) (he : 0 < e c) :
    photons k area e irr kx ky c < thr := by
  have hd : dist R kx ky ≤ R := by unfold dist; omega
  have h1 : 1 ≤ dist R kx ky := by omega
  have hR : ¬ ((R : Int) ≤ 0) := by omega
  have hring := (mem_ring (kx := kx) (ky := ky) hd h1).2 rfl
  have hs : k.val kx ky c * conversion area e c ≤ ringMax k (conversion area e) R (dist R kx ky) :=
    (fold_scan_ge k (conversion area e) (ringPixels R (dist R kx ky)) 0).2 (kx, ky) hring hw hh c
  have hconv : conversion area e c = area / e c := by unfold conversion; rw [if_pos he]
  rw [hconv] at hs
  have hph : photons k area e irr kx ky c = irr c * (k.val kx ky c * (area / e c)) := by
    unfold photons; ring
  rw [hph]
  have hspec := (lookupRev_spec irrMax minR _ (buildLut_rev_sorted k R area e thr)).1
  by_cases hpos : 0 < ringMax k (conversion area e) R (dist R kx ky)
  · have hmem : (dist R kx ky, thr / ringMax k (conversion area e) R (dist R kx ky)) ∈
        (buildLut k R area e thr).reverse := by
      rw [List.mem_reverse]
      unfold buildLut
      rw [if_neg hR, mem_buildFrom]
      refine ⟨h1, ?_, hpos, rfl⟩
      simp only [Int.toNat_natCast]; omega
    have := hspec _ hmem hout
    rw [lt_div_iff₀ hpos] at this
    calc irr c * (k.val kx ky c * (area / e c)) ≤ irr c * ringMax k (conversion area e) R (dist R kx ky) :=
          mul_le_mul_of_nonneg_left hs (h0 c)
      _ ≤ irrMax * ringMax k (conversion area e) R (dist R kx ky) := mul_le_mul_of_nonneg_right (hm c) hpos.le
      _ < thr := this
  · have : k.val kx ky c * (area / e c) ≤ 0 := le_trans hs (not_lt.1 hpos)
    exact lt_of_le_of_lt (mul_nonpos_of_nonneg_of_nonpos (h0 c) this) ht

/-- **C52, monotone.** A brighter source never gets a smaller radius. -/
theorem C52_monotone {n : Nat} (k : Kern n) (R : Int) (minR : Nat) (area thr : ℝ) (e : Fin n → ℝ) (i1 i2 : ℝ)
    (h : i1 ≤ i2) :
    lookup (buildLut k R area e thr) i1 minR ≤ lookup (buildLut k R area e thr) i2 minR :=
  lookupRev_mono i1 i2 h minR _ (buildLut_rev_sorted k R area e thr)

/-- **C52, range.** The radius is at least the minimum, and never larger than the kernel unless the minimum is. -/
theorem C52_range {n : Nat} (k : Kern n) (R minR : Nat) (area thr : ℝ) (e : Fin n → ℝ) (i : ℝ) :
    minR ≤ lookup (buildLut k R area e thr) i minR ∧ lookup (buildLut k R area e thr) i minR ≤ max R minR := by
  have hs := lookupRev_spec i minR _ (buildLut_rev_sorted k R area e thr)
  refine ⟨hs.2.1, ?_⟩
  show lookupRev i minR _ ≤ _
  rcases hs.2.2 with h | ⟨⟨q, v⟩, ha, h, _⟩
  · rw [h]; exact le_max_right _ _
  · rw [h]
    rw [List.mem_reverse] at ha
    unfold buildLut at ha
    split at ha
    · simp at ha
    · rw [mem_buildFrom] at ha
      have := ha.2.1
      simp only [Int.toNat_natCast] at this
      show q ≤ _
      have : q ≤ R := by omega
      exact le_trans this (le_max_left _ _)

/-- **C52, tightness.** A radius larger than the minimum is really needed: some pixel of that ring would receive at least
the threshold from a source that has irradiance `i` in every channel (so the search does not just return the full
radius). -/
theorem C52_tight {n : Nat} (k : Kern n) (R minR : Nat) (area thr : ℝ) (e : Fin n → ℝ) (i : ℝ)
    (hbig : minR < lookup (buildLut k R area e thr) i minR) :
    ∃ kx ky c, dist R kx ky = lookup (buildLut k R area e thr) i minR ∧ kx < k.w ∧ ky < k.h ∧ 0 < e c ∧
      thr ≤ photons k area e (fun _ => i) kx ky c := by
  have hs := lookupRev_spec i minR _ (buildLut_rev_sorted k R area e thr)
  rcases hs.2.2 with h | ⟨⟨q, v⟩, ha, h, hv⟩
  · exact absurd h (by unfold lookup at hbig; omega)
  · rw [List.mem_reverse] at ha
    unfold buildLut at ha
    split at ha
    · simp at ha
    rw [mem_buildFrom] at ha
    obtain ⟨q1, q2, q3, q4⟩ := ha
    simp only [Int.toNat_natCast] at q2 q3 q4
    have hq : lookup (buildLut k R area e thr) i minR = q := h
    -- the maximum of the ring is attained
    have key : ∀ (l : List (Nat × Nat)) (m : ℝ), l.foldl (scanPixel k (conversion area e)) m = m ∨
        ∃ p ∈ l, ∃ c, p.1 < k.w ∧ p.2 < k.h ∧
          l.foldl (scanPixel k (conversion area e)) m = k.val p.1 p.2 c * conversion area e c := by
      intro l
      induction l with
      | nil => intro m; left; rfl
      | cons b t ih =>
        intro m
        simp only [List.foldl_cons]
        rcases ih (scanPixel k (conversion area e) m b) with h' | ⟨p, hp, c, h'⟩
        · rw [h']
          unfold scanPixel
          split
          · left; rfl
          · rename_i hin
            rcases foldl_max_att (fun c => k.val b.1 b.2 c * conversion area e c) (List.finRange n) m with h2 | ⟨c, _, h2⟩
            · left; exact h2
            · right; exact ⟨b, List.mem_cons_self .., c, by omega, by omega, h2⟩
        · right; exact ⟨p, List.mem_cons_of_mem _ hp, c, h'⟩
    rcases key (ringPixels R q) 0 with h0 | ⟨⟨kx, ky⟩, hp, c, hw, hh, hval⟩
    · exact absurd h0 (by unfold ringMax at q3; exact ne_of_gt q3)
    · have hd := (mem_ring (by omega) q1).1 hp
      have hec : 0 < e c := by
        by_contra hne
        have : conversion area e c = 0 := by unfold conversion; rw [if_neg hne]
        rw [this, mul_zero] at hval
        unfold ringMax at q3
        linarith
      refine ⟨kx, ky, c, by rw [hd, hq], hw, hh, hec, ?_⟩
      have hconv : conversion area e c = area / e c := by unfold conversion; rw [if_pos hec]
      have hmx : ringMax k (conversion area e) R q = k.val kx ky c * (area / e c) := by
        unfold ringMax; rw [hval, hconv]
      simp only at hv
      rw [q4, hmx] at hv
      rw [hmx] at q3
      rw [div_le_iff₀ q3] at hv
      calc thr ≤ i * (k.val kx ky c * (area / e c)) := hv
        _ = photons k area e (fun _ => i) kx ky c := by unfold photons; ring

/-- `max_irradiance`, renderer.ipp lines 614-621 (one channel-maximum per time sample;
the outer maximum starts at 0, so starting the inner one at 0 instead of at the first channel changes nothing). -/
def maxIrradiance {n : Nat} (irr : List (Fin n → ℝ)) : ℝ :=
  irr.foldl (fun m v => max m ((List.finRange n).foldl (fun m c => max m (v c)) 0)) 0

/-- The irradiance used for the radius bounds every recorded irradiance of the source. -/
theorem C52_max_irradiance {n : Nat} (irr : List (Fin n → ℝ)) (v : Fin n → ℝ) (hv : v ∈ irr) (c : Fin n) :
    v c ≤ maxIrradiance irr := by
  have h1 := (foldl_max_ge (fun v : Fin n → ℝ => (List.finRange n).foldl (fun m c => max m (v c)) 0) irr 0).2 v hv
  have h2 := (foldl_max_ge (fun c => v c) (List.finRange n) 0).2 c (List.mem_finRange c)
  exact le_trans h2 h1

/-- A concrete kernel: a 5 x 5 one-channel kernel, 1 at the centre, 1/10 on the inner ring, 1/100 outside. -/
def exKern : Kern 1 := ⟨5, 5, fun x y _ => if dist 2 x y = 0 then 1 else if dist 2 x y = 1 then 1 / 10 else 1 / 100⟩

theorem exKern_ring (r : Nat) (h1 : 1 ≤ r) (h2 : r ≤ 2) :
    ringMax exKern (conversion 1 fun _ => 1) 2 r = if r = 1 then 1 / 10 else 1 / 100 := by
  have hv : ∀ p ∈ ringPixels 2 r, ∀ m : ℝ, scanPixel exKern (conversion 1 fun _ => 1) m p =
      max m (if r = 1 then 1 / 10 else 1 / 100) := by
    rintro ⟨x, y⟩ hp m
    have hd := (mem_ring h2 h1).1 hp
    have hx : x ≤ 4 ∧ y ≤ 4 := by unfold dist at hd; omega
    have hin : ¬ (x ≥ exKern.w ∨ y ≥ exKern.h) := by simp only [exKern]; omega
    unfold scanPixel
    rw [if_neg hin]
    have : (List.finRange 1) = [0] := by decide
    rw [this]
    simp only [List.foldl_cons, List.foldl_nil, conversion, exKern, hd]
    rw [if_neg (by omega : ¬ r = 0)]
    simp
  have hf : ∀ (l : List (Nat × Nat)) (m : ℝ), (∀ p ∈ l, p ∈ ringPixels 2 r) → l ≠ [] → m ≤ (if r = 1 then 1 / 10 else 1 / 100) →
      l.foldl (scanPixel exKern (conversion 1 fun _ => 1)) m = if r = 1 then 1 / 10 else 1 / 100 := by
    intro l
    induction l with
    | nil => intro m _ h; exact absurd rfl h
    | cons b t ih =>
      intro m hmem _ hm
      simp only [List.foldl_cons]
      rw [hv b (hmem b (List.mem_cons_self ..)), max_eq_right hm]
      by_cases ht : t = []
      · rw [ht]; rfl
      · exact ih _ (fun p hp => hmem p (List.mem_cons_of_mem _ hp)) ht (le_refl _)
  apply hf _ _ (fun p hp => hp)
  · intro h
    have := (mem_ring (R := 2) (r := r) (kx := 2 + r) (ky := 2) h2 h1).2 (by unfold dist; omega)
    rw [h] at this
    simp at this
  · split <;> norm_num

/-- With threshold 1/10 the table is [(1, 1), (2, 10)]: a source of irradiance 5 gets radius 1, one of 50 radius 2. -/
example : lookup (buildLut exKern 2 1 (fun _ => 1) (1 / 10)) 5 1 = 1 ∧
    lookup (buildLut exKern 2 1 (fun _ => 1) (1 / 10)) 50 1 = 2 := by
  have h : buildLut exKern 2 1 (fun _ => 1) (1 / 10) = [(1, 1), (2, 10)] := by
    unfold buildLut
    rw [if_neg (by norm_num)]
    show buildFrom exKern _ 2 _ 1 2 = _
    simp only [buildFrom, exKern_ring 1 (by omega) (by omega), exKern_ring 2 (by omega) (by omega)]
    norm_num
  rw [h]
  constructor <;> simp [lookup, lookupRev] <;> norm_num

end
end Huira.Lut
