import Mathlib.Data.Real.Basic
import Mathlib.Algebra.BigOperators.Group.List.Basic
import Mathlib.Algebra.Order.BigOperators.Group.List
import Mathlib.Algebra.BigOperators.Ring.List
import Mathlib.Tactic.FieldSimp
import Mathlib.Tactic.Linarith
import Mathlib.Tactic.Ring
set_option linter.unusedSimpArgs false
/-!
# C43: veiling glare

Models the veiling-glare block of `Renderer::render` (`include/huira_impl/render/renderer.ipp` lines 45-59). Pixels are
vectors of `n` channels with exact real values (no rounding).
-/
namespace Huira.Post

/-- A pixel: one value per spectral bin. -/
abbrev Px (n : Nat) := Fin n → ℝ

/-- `total_power`, lines 47-50. -/
noncomputable def totalPower {n : Nat} : List (Px n) → Px n
  | [] => fun _ => 0
  | p :: ps => fun c => p c + totalPower ps c

/-- Lines 45-59: every pixel becomes `p * (1 - alpha) + alpha * total / size`. Simplification: the sum is taken right to
left (the order of exact sums does not matter). -/
noncomputable def veil {n : Nat} (enabled : Bool) (alpha : ℝ) (img : List (Px n)) : List (Px n) :=
  if enabled then
    let unveiled := 1 - alpha
    let bias : Px n := fun c => alpha * totalPower img c / (img.length : ℝ)
    img.map fun p c => p c * unveiled + bias c
  else img

/-! ### Specification: per-channel sum over the image -/

/-- Sum of channel `c` over the image. -/
noncomputable def channelSum {n : Nat} (img : List (Px n)) (c : Fin n) : ℝ := (img.map (· c)).sum

theorem totalPower_eq {n : Nat} (img : List (Px n)) (c : Fin n) : totalPower img c = channelSum img c := by
  induction img with
  | nil => rfl
  | cons p ps ih => simp only [totalPower, channelSum, List.map_cons, List.sum_cons, ih]

theorem sum_affine {n : Nat} (img : List (Px n)) (c : Fin n) (a b : ℝ) :
    ((img.map fun p c => p c * a + b).map (· c)).sum = channelSum img c * a + (img.length : ℝ) * b := by
  induction img with
  | nil => simp [channelSum]
  | cons p ps ih =>
    simp only [List.map_cons, List.sum_cons, ih, channelSum, List.length_cons]
    push_cast
    ring

/-- **C43, conservation.** Veiling glare leaves the total power of every channel unchanged, whatever the image and alpha. -/
theorem C43_total_conserved {n : Nat} (enabled : Bool) (alpha : ℝ) (img : List (Px n)) (c : Fin n) :
    channelSum (veil enabled alpha img) c = channelSum img c := by
  unfold veil
  cases enabled with
  | false => rfl
  | true =>
    simp only [if_true]
    cases img with
    | nil => rfl
    | cons p ps =>
      have h := sum_affine (p :: ps) c (1 - alpha) (alpha * totalPower (p :: ps) c / ((p :: ps).length : ℝ))
      have h2 : channelSum ((p :: ps).map fun q c => q c * (1 - alpha) + alpha * totalPower (p :: ps) c /
          ((p :: ps).length : ℝ)) c = ((List.map (fun q c' => q c' * (1 - alpha) + alpha * totalPower (p :: ps) c /
          ((p :: ps).length : ℝ)) (p :: ps)).map (· c)).sum := by
        unfold channelSum
        rw [List.map_map, List.map_map]
        rfl
      rw [h2, h, totalPower_eq]
      have : ((p :: ps).length : ℝ) ≠ 0 := by simp only [List.length_cons]; positivity
      field_simp
      ring

/-- **C43, non-negativity.** With alpha in [0, 1], non-negative pixels stay non-negative. -/
theorem C43_nonneg {n : Nat} (enabled : Bool) (alpha : ℝ) (img : List (Px n)) (h0 : 0 ≤ alpha) (h1 : alpha ≤ 1)
    (hp : ∀ p ∈ img, ∀ c, 0 ≤ p c) : ∀ p ∈ veil enabled alpha img, ∀ c, 0 ≤ p c := by
  unfold veil
  cases enabled with
  | false => exact hp
  | true =>
    simp only [if_true]
    intro p hpm c
    obtain ⟨q, hq, rfl⟩ := List.mem_map.1 hpm
    have hs : 0 ≤ totalPower img c := by
      rw [totalPower_eq]
      apply List.sum_nonneg
      intro x hx
      obtain ⟨r, hr, rfl⟩ := List.mem_map.1 hx
      exact hp r hr c
    have := hp q hq c
    have h2 : 0 ≤ 1 - alpha := by linarith
    positivity

theorem map_getElem?_px {n : Nat} (img : List (Px n)) (f : Px n → Px n) (i : Nat) :
    (img.map f)[i]? = (img[i]?).map f := by simp

/-- **C43, per pixel.** Each pixel moves toward the image mean by the fraction alpha, with the image size kept: at
alpha 0 nothing changes, at alpha 1 every pixel is the mean. -/
theorem C43_pixel {n : Nat} (alpha : ℝ) (img : List (Px n)) (i : Nat) (hi : i < img.length) :
    (veil true alpha img).length = img.length ∧
    (veil true alpha img)[i]? = some (fun c => (1 - alpha) * img[i] c + alpha * (channelSum img c / img.length)) := by
  unfold veil
  simp only [if_true, List.length_map, true_and, List.getElem?_map, List.getElem?_eq_getElem hi, Option.map_some]
  congr 1
  funext c
  rw [totalPower_eq]
  ring

/-- A concrete image: two one-channel pixels 1 and 3 with alpha = 1/2 become 3/2 and 5/2. -/
example : veil true (1 / 2) [(fun _ => 1 : Px 1), fun _ => 3] = [fun _ => 3 / 2, fun _ => 5 / 2] := by
  simp only [veil, totalPower, if_true, List.map_cons, List.map_nil, List.length_cons, List.length_nil]
  norm_num

end Huira.Post
