import Verif.Num.XFloat
/-!
# Per-pixel sampling statistics of the path tracer

Models, from `include/huira_impl/render/renderer.ipp`: `power_heuristic` (lines 64-72), the indirect clamp (483-489), the
sample accumulation with Welford's update and the early exit (lines 491-522), the pixel averages (524-529), and Russian
roulette (462-470). Arithmetic is that of `Verif.Num.XFloat` (exact reals, plus NaN and infinities), one value per
spectral bin; there is at least one bin.
-/
namespace Huira.Stats

noncomputable section
open Classical

/-- A spectral value with `n + 1` bins. -/
abbrev Spec (n : Nat) := Fin (n + 1) → XF

/-- `power_heuristic`, lines 64-72. -/
def powerHeuristic (f g : XF) : XF :=
  if (XF.mul f f).isInf then .fin 1
  else XF.div (XF.mul f f) (XF.add (XF.mul f f) (XF.mul g g))

/-- `SpectralBins::max`, `include/huira_impl/core/spectral_bins.ipp` lines 274-286. -/
def vmax {n : Nat} (v : Spec n) : XF :=
  (List.finRange (n + 1)).tail.foldl (fun m c => if XF.lt m (v c) then v c else m) (v 0)

/-- Accumulators of a pixel, lines 159-171. -/
structure Acc (n : Nat) where
  mean : Spec n
  m2 : Spec n
  direct : Spec n
  indirect : Spec n
  total : Spec n
  inv : XF
  taken : Nat

/-- Initial accumulators, lines 159-171. -/
def Acc.init (n : Nat) : Acc n where
  mean _ := .fin 0
  m2 _ := .fin 0
  direct _ := .fin 0
  indirect _ := .fin 0
  total _ := .fin 0
  inv := .fin 0
  taken := 0

/-- One sample: its direct and (clamped) indirect radiance. -/
abbrev Sample (n : Nat) := Spec n × Spec n

/-- `sample_radiance = direct_radiance + indirect_radiance`, line 491. -/
def radiance {n : Nat} (x : Sample n) : Spec n := fun c => XF.add (x.1 c) (x.2 c)

/-- Lines 497-508. -/
def accept {n : Nat} (a : Acc n) (x : Sample n) : Acc n :=
  let r := radiance x
  let taken := a.taken + 1
  let inv := XF.div (.fin 1) (.fin (taken : ℝ))
  let delta : Spec n := fun c => XF.add (r c) (XF.neg (a.mean c))
  let mean : Spec n := fun c => XF.add (a.mean c) (XF.mul (delta c) inv)
  let delta2 : Spec n := fun c => XF.add (r c) (XF.neg (mean c))
  { mean := mean
    m2 := fun c => XF.add (a.m2 c) (XF.mul (delta c) (delta2 c))
    direct := fun c => XF.add (a.direct c) (x.1 c)
    indirect := fun c => XF.add (a.indirect c) (x.2 c)
    total := fun c => XF.add (a.total c) (r c)
    inv := inv
    taken := taken }

/-- `std::isnan(sample_radiance[0])`, line 493: only the first bin is looked at. -/
def skipped {n : Nat} (x : Sample n) : Prop := (radiance x 0).isNan

/-- Settings: `dynamic_sampling_`, `min_spp_`, `variance_threshold_`. -/
structure Settings where
  dynamic : Bool
  minSpp : Int
  threshold : XF

/-- `rel_variance`, lines 513-516. -/
def relVariance {n : Nat} (a : Acc n) : XF :=
  XF.div (vmax fun c => XF.mul (a.m2 c) a.inv) (XF.add (vmax a.mean) (.fin (1 / 10000)))

/-- The early-exit test after sample number `s`, lines 511-521. -/
def stops {n : Nat} (g : Settings) (s : Nat) (a : Acc n) : Prop :=
  g.dynamic = true ∧ (s : Int) ≥ g.minSpp - 1 ∧ XF.lt (relVariance a) g.threshold

/-- The sample loop, lines 173-522, over the samples `xs` the path tracer would produce, starting at number `s`. -/
def loop {n : Nat} (g : Settings) : Nat → List (Sample n) → Acc n → Acc n
  | _, [], a => a
  | s, x :: xs, a =>
    if skipped x then loop g (s + 1) xs a
    else if stops g s (accept a x) then accept a x
    else loop g (s + 1) xs (accept a x)

/-- The three averages written to the frame buffer, lines 523-528: `sum * (1 / samples_taken)`. -/
def average {n : Nat} (sum : Spec n) (taken : Nat) : Spec n :=
  fun c => XF.mul (sum c) (XF.div (.fin 1) (.fin (taken : ℝ)))

/-- The radiance of a pixel, lines 523-526. -/
def pixelRadiance {n : Nat} (g : Settings) (xs : List (Sample n)) : Spec n :=
  let a := loop g 0 xs (Acc.init n)
  average a.total a.taken

/-- Indirect clamp, lines 484-489, on finite radiances: `threshold` none is the default, infinity. -/
def clampIndirect {n : Nat} (threshold : Option ℝ) (v : Fin (n + 1) → ℝ) : Fin (n + 1) → ℝ :=
  let m := (List.finRange (n + 1)).tail.foldl (fun m c => if m < v c then v c else m) (v 0)
  match threshold with
  | none => v
  | some t => if t < m then fun c => v c * (t / m) else v

/-- `p_continue`, line 464, on a finite throughput. -/
def pContinue {n : Nat} (v : Fin (n + 1) → ℝ) : ℝ :=
  min (95 / 100) ((List.finRange (n + 1)).tail.foldl (fun m c => if m < v c then v c else m) (v 0))

/-- Russian roulette, lines 463-470, with the random number `u`: the path ends (`none`) or goes on with the throughput
divided by the probability. -/
def roulette {n : Nat} (bounce : Nat) (v : Fin (n + 1) → ℝ) (u : ℝ) : Option (Fin (n + 1) → ℝ) :=
  if bounce ≥ 3 then
    if u > pContinue v then none else some fun c => v c / pContinue v
  else some v

end
end Huira.Stats
