import Verif.Num.XFloat
import Mathlib.Data.List.FinRange
import Mathlib.Algebra.BigOperators.Fin
import Mathlib.Tactic

/-!
# Model of spectral bins

Models `include/huira/core/spectral_bins.hpp` and `include/huira_impl/core/spectral_bins.ipp`.

`double` and `float` are real numbers here and arithmetic on them is exact (the casts between them are the
identity), except in `valid` and `valid_ratio`, which are about NaN and infinities.  The template arguments `Args...`
are a list of wavelengths in nanometres; a `static_assert` or a `throw` inside the `constexpr` initialisation is a
compile error, modelled by `none`.
-/

namespace Huira.Spectral

/-- `struct Bin` (`spectral_bins.hpp` 13-26); the centre is computed by the constructor. -/
@[ext]
structure Bin where
  min : ℝ
  max : ℝ

/-- `center_wavelength` (`spectral_bins.hpp` 23). -/
noncomputable def Bin.center (b : Bin) : ℝ := (b.min + b.max) / 2

/-- Width of a bin, `max_wavelength - min_wavelength` as written out at each use. -/
def Bin.width (b : Bin) : ℝ := b.max - b.min

/-- `initialize_uniform_static_` (`spectral_bins.ipp` 738-753). -/
noncomputable def initUniform (n : ℕ) (a0 a1 : ℝ) : Fin n → Bin :=
  let minVal := a0 * 1e-9
  let maxVal := a1 * 1e-9
  let step := (maxVal - minVal) / (n : ℝ)
  fun i => ⟨minVal + (i : ℝ) * step, minVal + ((i : ℕ) + 1 : ℕ) * step⟩

/-- `initialize_pairs_static_` (`spectral_bins.ipp` 762-771). -/
noncomputable def initPairs (n : ℕ) (args : List ℝ) : Fin n → Bin := fun i =>
  ⟨args.getD (2 * i) 0 * 1e-9, args.getD (2 * i + 1) 0 * 1e-9⟩

/-- `initialize_edges_static_` (`spectral_bins.ipp` 781-790). -/
noncomputable def initEdges (n : ℕ) (args : List ℝ) : Fin n → Bin := fun i =>
  ⟨args.getD i 0 * 1e-9, args.getD (i + 1) 0 * 1e-9⟩

/-- The dispatch on the number of arguments (`spectral_bins.ipp` 696-710). -/
noncomputable def dispatch (n : ℕ) (args : List ℝ) : Option (Fin n → Bin) :=
  if args.length = 2 then
    if 0 < n then some (initUniform n (args.getD 0 0) (args.getD 1 0)) else none
  else if args.length = 2 * n then some (initPairs n args)
  else if args.length = n + 1 then some (initEdges n args)
  else none

open Classical in
/-- `initialize_bins_static_` (`spectral_bins.ipp` 693-731): rejects reversed or empty bins, then overlapping pairs. -/
noncomputable def initBins (n : ℕ) (args : List ℝ) : Option (Fin n → Bin) := do
  let bins ← dispatch n args
  if ∃ i, (bins i).min ≥ (bins i).max then none
  else if ∃ i j, i < j ∧ (bins i).min < (bins j).max ∧ (bins j).min < (bins i).max then none
  else some bins

/-- A running sum over the bins, the loop shape used by `total`, `integrate`, ... -/
noncomputable def loopSum (n : ℕ) (f : Fin n → ℝ) : ℝ := (List.finRange n).foldl (fun s i => s + f i) 0

variable {n : ℕ}

/-- Constructor from an initialiser list (`spectral_bins.ipp` 37-48): one value fills, otherwise the leading values are
copied; `none` is an element the constructor leaves uninitialised. -/
def ofInit (n : ℕ) (init : List ℝ) : Fin n → Option ℝ := fun i =>
  if init.length = 1 then init[0]?
  else if (i : ℕ) < Nat.min init.length n then init[(i : ℕ)]? else none

/-- `from_total` (`spectral_bins.ipp` 218-236). -/
noncomputable def fromTotal (bins : Fin n → Bin) (total : ℝ) : Fin n → ℝ :=
  let totalWidth := loopSum n fun i => (bins i).max - (bins i).min
  fun i => total * (((bins i).max - (bins i).min) / totalWidth)

/-- `total` (`spectral_bins.ipp` 243-251). -/
noncomputable def total (d : Fin n → ℝ) : ℝ := loopSum n d
/-- `magnitude` (`spectral_bins.ipp` 258-266). -/
noncomputable def magnitude (d : Fin n → ℝ) : ℝ := Real.sqrt (loopSum n fun i => d i * d i)
/-- `integrate` (`spectral_bins.ipp` 316-325). -/
noncomputable def integrate (bins : Fin n → Bin) (d : Fin n → ℝ) : ℝ :=
  loopSum n fun i => d i * ((bins i).max - (bins i).min)

/-- `integrate_over_band` (`spectral_bins.ipp` 327-347). -/
noncomputable def integrateBand (bins : Fin n → Bin) (d : Fin n → ℝ) (lo hi : ℝ) : ℝ :=
  loopSum n fun i =>
    if (bins i).max ≤ lo ∨ (bins i).min ≥ hi then 0
    else d i * (min (bins i).max hi - max (bins i).min lo)

/-- `max` (`spectral_bins.ipp` 273-286). -/
noncomputable def maxVal : List ℝ → ℝ
  | [] => 0
  | x :: xs => xs.foldl (fun m y => if y > m then y else m) x
/-- `min` (`spectral_bins.ipp` 293-306). -/
noncomputable def minVal : List ℝ → ℝ
  | [] => 0
  | x :: xs => xs.foldl (fun m y => if y < m then y else m) x

open Classical in
/-- `valid` (`spectral_bins.ipp` 356-373). -/
noncomputable def valid : List XF → Bool
  | [] => true
  | x :: xs => if x.lt (.fin 0) then false else if x.isNan then false else if x.isInf then false else valid xs

open Classical in
/-- `valid_ratio` (`spectral_bins.ipp` 382-397). -/
noncomputable def validRatio : List XF → Bool
  | [] => true
  | x :: xs => if x.lt (.fin 0) ∨ XF.lt (.fin 1) x then false else if x.isNan then false
      else if x.isInf then false else validRatio xs

/-- The four arithmetic operators. -/
inductive Op
  | add | sub | mul | div

/-- One operator on two floats. -/
noncomputable def Op.eval : Op → ℝ → ℝ → ℝ
  | .add, a, b => a + b
  | .sub, a, b => a - b
  | .mul, a, b => a * b
  | .div, a, b => a / b

/-- In-place loop `for i: data_[i] op= rhs(i)` (`spectral_bins.ipp` 412-490). -/
noncomputable def inPlace (o : Op) (d : Fin n → ℝ) (rhs : Fin n → ℝ) : Fin n → ℝ :=
  (List.finRange n).foldl (fun d i => Function.update d i (o.eval (d i) (rhs i))) d

/-- array op array (`spectral_bins.ipp` 564-598). -/
noncomputable def arrayArray (o : Op) (a b : Fin n → ℝ) : Fin n → ℝ := inPlace o a b
/-- array op scalar (`spectral_bins.ipp` 603-633). -/
noncomputable def arrayScalar (o : Op) (a : Fin n → ℝ) (s : ℝ) : Fin n → ℝ := inPlace o a (fun _ => s)
/-- scalar op array (`spectral_bins.ipp` 638-668): sums and products are commuted, differences and quotients written out. -/
noncomputable def scalarArray (o : Op) (s : ℝ) (b : Fin n → ℝ) : Fin n → ℝ :=
  match o with
  | .add => arrayScalar .add b s
  | .mul => arrayScalar .mul b s
  | .sub => fun i => s - b i
  | .div => fun i => s / b i

/-- `photon_energies` (`spectral_bins.ipp` 550-559) with `photon_energy(λ) = h c / λ` (`physics.ipp`). -/
noncomputable def photonEnergies (hc : ℝ) (bins : Fin n → Bin) : Fin n → ℝ := fun i => hc / (bins i).center

/-! ## Averaging sampled data -/

/-- `lerp_value` (`spectral_bins.ipp` 106-110). -/
noncomputable def lerp (w v : ℕ → ℝ) (lo hi : ℕ) (t : ℝ) : ℝ :=
  let alpha := (t - w lo) / (w hi - w lo)
  v lo * (1 - alpha) + v hi * alpha

open Classical in
/-- `lower_bound_idx` (`spectral_bins.ipp` 113-125): the loop with `first` and `count`. -/
noncomputable def lowerBound (w : ℕ → ℝ) (target : ℝ) (first count : ℕ) : ℕ :=
  if h : 0 < count then
    if w (first + count / 2) < target then lowerBound w target (first + count / 2 + 1) (count - (count / 2 + 1))
    else lowerBound w target first (count / 2)
  else first
termination_by count
decreasing_by all_goals omega

/-- State of the accumulation: integral, and the previous knot once there is one. -/
structure Acc where
  integral : ℝ
  prev : Option (ℝ × ℝ)

/-- Adding one knot. -/
noncomputable def Acc.knot (a : Acc) (lam val : ℝ) : Acc :=
  match a.prev with
  | none => ⟨a.integral, some (lam, val)⟩
  | some (pl, pv) => ⟨a.integral + 0.5 * (pv + val) * (lam - pl), some (lam, val)⟩

open Classical in
/-- The loop over interior samples (`spectral_bins.ipp` 174-183). -/
noncomputable def interior (w v : ℕ → ℝ) (M : ℕ) (hi : ℝ) (k : ℕ) (a : Acc) : Acc :=
  if h : k < M then
    if w k < hi then interior w v M hi (k + 1) (a.knot (w k) (v k)) else a
  else a
termination_by M - k

open Classical in
/-- One bin of `integrate_over_data` (`spectral_bins.ipp` 129-203); `lo`, `hi` are the bin's edges in nanometres. -/
noncomputable def meanOver (w v : ℕ → ℝ) (M : ℕ) (lo hi : ℝ) : ℝ :=
  let loIdx := lowerBound w lo 0 M
  if loIdx = M then 0
  else if w loIdx ≥ hi ∧ loIdx = 0 then 0
  else if loIdx > 0 ∧ w loIdx ≥ hi then
    0.5 * (lerp w v (loIdx - 1) loIdx lo + lerp w v (loIdx - 1) loIdx hi)
  else
    let a : Acc := if loIdx > 0 ∧ w loIdx > lo then ⟨0, some (lo, lerp w v (loIdx - 1) loIdx lo)⟩ else ⟨0, none⟩
    let a := interior w v M hi loIdx a
    let hiIdx := lowerBound w hi 0 M
    let right := if hiIdx < M then lerp w v (hiIdx - 1) hiIdx hi else v (M - 1)
    let integral := match a.prev with
      | some (pl, pv) => a.integral + 0.5 * (pv + right) * (hi - pl)
      | none => a.integral
    integral / (hi - lo)

open Classical in
/-- `integrate_over_data` (`spectral_bins.ipp` 85-206); `none` is a thrown exception. -/
noncomputable def integrateData (bins : Fin n → Bin) (ws vs : List ℝ) : Option (Fin n → ℝ) :=
  if ws.length ≠ vs.length then none
  else if ws = [] then none
  else if ∃ k, 1 ≤ k ∧ k < ws.length ∧ ws.getD k 0 ≤ ws.getD (k - 1) 0 then none
  else some fun i => meanOver (fun k => ws.getD k 0) (fun k => vs.getD k 0) ws.length
    ((bins i).min * 1e9) ((bins i).max * 1e9)

/-! ## RGB to spectral -/

/-- The bins of `RGB` (`spectral_bins.hpp` 205): red 600-750, green 500-600, blue 380-500 nm. -/
noncomputable def rgbBins : Fin 3 → Bin := initPairs 3 [600, 750, 500, 600, 380, 500]

open Classical in
/-- `convert_rgb_to_spectral<TSpectral>` for a type other than `RGB` (`spectral_bins.ipp` 793-829). -/
noncomputable def convertRgb (bins : Fin (n + 1) → Bin) (rgb : Fin 3 → ℝ) : Fin (n + 1) → ℝ :=
  let spectralMin := (bins 0).min
  let spectralMax := (bins (Fin.last n)).max
  let rgbMin := (rgbBins 0).min
  let rgbMax := (rgbBins 0).max
  let overlap := min spectralMax rgbMax - max spectralMin rgbMin
  if overlap / (rgbMax - rgbMin) > 0.1 then
    fun i => integrateBand rgbBins rgb (bins i).min (bins i).max / ((bins i).max - (bins i).min)
  else fun _ => (rgb 0 + rgb 1 + rgb 2) / 3

end Huira.Spectral
