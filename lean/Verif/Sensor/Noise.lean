import Verif.Render.FrameLight
/-!
# C149: the noise of a readout, and reading out again

`SimpleSensor::readout` and `noise_and_adc` (`include/huira_impl/cameras/sensors/simple_sensor.ipp`) as loops that draw from
a generator which lives as long as the process (`static std::mt19937 rng(1)`, line 75). There is one generator for each
spectral type, shared by all sensors of that type; two readouts at the same time are a data race and are left out.
-/
set_option linter.unusedSimpArgs false
namespace Huira.Sensor.Noise
noncomputable section
open Classical

/-- `std::normal_distribution` of the C++ library over a generator with states `G`: a distribution may keep numbers back
(`D`; `fresh` is a distribution just constructed), and the number it returns is mean plus deviation times a number that
does not depend on either, which is what the common implementations do. -/
structure Normal (G : Type) where
  D : Type
  fresh : D
  draw : D → G → ℝ × D × G

variable {G : Type} {n : Nat}

/-- `std::sqrt` -/
def sqrtX : XF → XF
  | .fin x => if x < 0 then .nan else .fin (Real.sqrt x)
  | .pinf => .pinf
  | .ninf => .nan
  | .nan => .nan

/-- `noise_and_adc` with the generator and the read-noise distribution (simple_sensor.ipp 25-53): the shot noise comes from a
distribution constructed for this value, the read noise from the one constructed by `readout`. -/
def noiseAndAdc (N : Normal G) (c : Config n) (signal dark : XF) (M : ℝ) (s : N.D × G) : XF × (N.D × G) :=
  if c.simulateNoise then
    let a := N.draw N.fresh s.2
    let b := N.draw s.1 a.2.2
    (noiseAdc c signal dark ((sqrtX (signal.add dark)).mul (.fin a.1)) (c.readNoise.mul (.fin b.1)) M, (b.2.1, b.2.2))
  else (noiseAdc c signal dark (.fin 0) (.fin 0) M, s)

/-- A sensor set up for a readout (simple_sensor.ipp 66-84): RGB or not, its configuration, photon energies, exposure. -/
structure Set (n : Nat) where
  rgb : Bool
  cfg : Config n
  energy : Fin n → XF
  dt : XF

/-- One pixel (simple_sensor.ipp 88-114) -/
def readPixel (N : Normal G) (d : Set n) (power : Fin n → ℝ) (s : N.D × G) : List XF × (N.D × G) :=
  let el := fun b => electrons (.fin (power b)) d.dt (d.energy b) (d.cfg.qe b)
  if d.rgb then
    (List.finRange n).foldl (fun r b =>
      let v := noiseAndAdc N d.cfg (el b) (darkE d.cfg d.dt) (maxDn d.cfg) r.2
      (r.1 ++ [v.1], v.2)) ([], s)
  else
    let v := noiseAndAdc N d.cfg (total el) (darkE d.cfg d.dt) (maxDn d.cfg) s
    ([v.1], v.2)

/-- A picture of `w × h` pixels. -/
structure Power (n : Nat) where
  w : Nat
  h : Nat
  px : Nat → Nat → Fin n → ℝ

/-- A row of the picture (simple_sensor.ipp 87-115) -/
def readRow (N : Normal G) (d : Set n) (p : Power n) (y : Nat) (r : (Nat → Nat → List XF) × (N.D × G)) :
    (Nat → Nat → List XF) × (N.D × G) :=
  (List.range p.w).foldl (fun r x =>
    let v := readPixel N d (p.px x y) r.2
    (fun x' y' => if x' = x ∧ y' = y then v.1 else r.1 x' y', v.2)) r

/-- `readout` (simple_sensor.ipp 65-117): the response picture and the generator afterwards. -/
def readout (N : Normal G) (d : Set n) (p : Power n) (out : Nat → Nat → List XF) (g : G) : (Nat → Nat → List XF) × G :=
  let r := (List.range p.h).foldl (fun r y => readRow N d p y r) (out, (N.fresh, g))
  (r.1, r.2.2)

/-- A process: the readouts it makes one after the other, from the generator it starts with. -/
def process (N : Normal G) (g : G) : List (Set n × Power n) → G
  | [] => g
  | (d, p) :: l => process N (readout N d p (fun _ _ => []) g).2 l

/-! ## Specification -/

/-- The pair of numbers drawn for one value, and what follows. -/
def pair (N : Normal G) (s : N.D × G) : (ℝ × ℝ) × (N.D × G) :=
  let a := N.draw N.fresh s.2
  let b := N.draw s.1 a.2.2
  ((a.1, b.1), (b.2.1, b.2.2))

/-- What follows `k` pairs. -/
def skip (N : Normal G) : Nat → N.D × G → N.D × G
  | 0, s => s
  | k + 1, s => skip N k (pair N s).2

/-- The `k`-th pair of a readout that starts with generator `g`. -/
def nth (N : Normal G) (g : G) (k : Nat) : ℝ × ℝ := (pair N (skip N k (N.fresh, g))).1

/-- Values of a pixel: three for RGB. -/
def channels (d : Set n) : Nat := if d.rgb then n else 1

/-- Values a readout draws noise for. -/
def drawn (d : Set n) (p : Power n) : Nat := if d.cfg.simulateNoise then p.w * p.h * channels d else 0

theorem skip_succ (N : Normal G) (k : Nat) (s : N.D × G) : skip N (k + 1) s = (pair N (skip N k s)).2 := by
  induction k generalizing s with
  | zero => rfl
  | succ k ih => exact ih _

theorem skip_add (N : Normal G) (j k : Nat) (s : N.D × G) : skip N (j + k) s = skip N k (skip N j s) := by
  induction j generalizing s with
  | zero => simp [skip]
  | succ j ih =>
    rw [show j + 1 + k = (j + k) + 1 by omega]
    exact ih _

/-- The noise handed to the values of a pixel: charge `q i` and pair `z i`. -/
def noiseOf (d : Set n) (q : Nat → XF) (z : Nat → ℝ × ℝ) (i : Nat) : XF × XF :=
  if d.cfg.simulateNoise then ((sqrtX ((q i).add (darkE d.cfg d.dt))).mul (.fin (z i).1), d.cfg.readNoise.mul (.fin (z i).2))
  else (.fin 0, .fin 0)

/-- The electrons a value counts. -/
def charge (d : Set n) (power : Fin n → ℝ) (i : Nat) : XF :=
  let el := fun b => electrons (.fin (power b)) d.dt (d.energy b) (d.cfg.qe b)
  if d.rgb then (if h : i < n then el ⟨i, h⟩ else .fin 0) else total el

theorem noiseAndAdc_eq (N : Normal G) (d : Set n) (q : XF) (s : N.D × G) :
    noiseAndAdc N d.cfg q (darkE d.cfg d.dt) (maxDn d.cfg) s =
      (noiseAdc d.cfg q (darkE d.cfg d.dt) (noiseOf d (fun _ => q) (fun _ => (pair N s).1) 0).1
        (noiseOf d (fun _ => q) (fun _ => (pair N s).1) 0).2 (maxDn d.cfg),
       if d.cfg.simulateNoise then skip N 1 s else s) := by
  unfold noiseAndAdc noiseOf
  split
  · rfl
  · rfl

theorem readPixel_eq (N : Normal G) (d : Set n) (power : Fin n → ℝ) (s : N.D × G) :
    readPixel N d power s =
      (Frame.sensorPixel d.rgb d.cfg d.energy d.dt power (noiseOf d (charge d power) (fun i => (pair N (skip N i s)).1)),
       if d.cfg.simulateNoise then skip N (channels d) s else s) := by
  unfold readPixel Frame.sensorPixel channels
  by_cases hr : d.rgb = true
  · simp only [hr, if_true]
    have key : ∀ m (hm : m ≤ n), ((List.finRange n).take m).foldl (fun (r : List XF × (N.D × G)) b =>
        ((r.1 ++ [(noiseAndAdc N d.cfg (electrons (.fin (power b)) d.dt (d.energy b) (d.cfg.qe b)) (darkE d.cfg d.dt) (maxDn d.cfg) r.2).1],
          (noiseAndAdc N d.cfg (electrons (.fin (power b)) d.dt (d.energy b) (d.cfg.qe b)) (darkE d.cfg d.dt) (maxDn d.cfg) r.2).2))) ([], s) =
        ((List.ofFn fun b : Fin n => noiseAdc d.cfg (electrons (.fin (power b)) d.dt (d.energy b) (d.cfg.qe b)) (darkE d.cfg d.dt)
            (noiseOf d (charge d power) (fun i => (pair N (skip N i s)).1) b).1
            (noiseOf d (charge d power) (fun i => (pair N (skip N i s)).1) b).2 (maxDn d.cfg)).take m,
          if d.cfg.simulateNoise then skip N m s else s) := by
      intro m
      induction m with
      | zero => intro _; simp [skip]
      | succ m ih =>
        intro hm'
        have hm : m < n := hm'
        rw [List.take_add_one, List.foldl_append, ih (by omega)]
        have h1 : (List.finRange n)[m]? = some ⟨m, hm⟩ := by
          rw [List.getElem?_eq_getElem (by simpa using hm)]
          simp
        rw [h1, List.take_add_one, List.getElem?_ofFn]
        simp only [Option.toList_some, List.foldl_cons, List.foldl_nil, dif_pos hm]
        have h2 : charge d power m = electrons (.fin (power ⟨m, hm⟩)) d.dt (d.energy ⟨m, hm⟩) (d.cfg.qe ⟨m, hm⟩) := by
          unfold charge
          simp only [hr, if_true, dif_pos hm]
        rw [noiseAndAdc_eq]
        by_cases hs : d.cfg.simulateNoise = true
        · simp only [hs, if_true, noiseOf, h2, skip_succ N m s]
          simp only [← skip_succ N 0, skip]
        · simp only [hs, if_false, noiseOf, Bool.false_eq_true]
    have := key n (le_refl _)
    rw [List.take_of_length_le (by simp), List.take_of_length_le (by simp)] at this
    exact this
  · have hr' : d.rgb = false := by simpa using hr
    simp only [hr', Bool.false_eq_true, if_false]
    rw [noiseAndAdc_eq]
    simp only [pixelMono]
    congr 2
    unfold noiseOf charge
    simp only [hr', Bool.false_eq_true, if_false, skip]

/-- The picture after the rows and the pixels before `(x0, y0)` and its state. -/
theorem readRow_eq (N : Normal G) (d : Set n) (p : Power n) (y : Nat) (o : Nat → Nat → List XF) (s : N.D × G) :
    readRow N d p y (o, s) =
      (fun x' y' => if x' < p.w ∧ y' = y then
          Frame.sensorPixel d.rgb d.cfg d.energy d.dt (p.px x' y')
            (noiseOf d (charge d (p.px x' y')) (fun i => (pair N (skip N (x' * channels d + i) s)).1)) else o x' y',
       if d.cfg.simulateNoise then skip N (p.w * channels d) s else s) := by
  unfold readRow
  generalize p.w = w
  induction w with
  | zero => simp [skip]
  | succ w ih =>
    rw [List.range_succ, List.foldl_append, ih]
    simp only [List.foldl_cons, List.foldl_nil, readPixel_eq]
    refine Prod.ext ?_ ?_
    · funext x' y'
      by_cases h1 : x' = w ∧ y' = y
      · obtain ⟨rfl, rfl⟩ := h1
        simp only [and_self, if_true, Nat.lt_succ_self]
        congr 1
        by_cases hs : d.cfg.simulateNoise = true
        · simp only [hs, if_true, skip_add]
        · funext i; simp only [hs, if_false, noiseOf, Bool.false_eq_true]
      · by_cases h2 : x' < w ∧ y' = y
        · dsimp only
          rw [if_neg h1, if_pos h2, if_pos ⟨by omega, h2.2⟩]
        · dsimp only
          rw [if_neg h1, if_neg h2, if_neg (by omega)]
    · by_cases hs : d.cfg.simulateNoise = true
      · simp only [hs, if_true, ← skip_add]
        congr 1
        ring
      · simp only [hs, if_false, Bool.false_eq_true]

theorem readout_eq (N : Normal G) (d : Set n) (p : Power n) (o : Nat → Nat → List XF) (g : G) :
    readout N d p o g =
      (fun x y => if x < p.w ∧ y < p.h then
          Frame.sensorPixel d.rgb d.cfg d.energy d.dt (p.px x y)
            (noiseOf d (charge d (p.px x y)) (fun i => nth N g ((y * p.w + x) * channels d + i))) else o x y,
       if d.cfg.simulateNoise then (skip N (p.w * p.h * channels d) (N.fresh, g)).2 else g) := by
  have key : ∀ h, (List.range h).foldl (fun r y => readRow N d p y r) (o, (N.fresh, g)) =
      (fun x y => if x < p.w ∧ y < h then
          Frame.sensorPixel d.rgb d.cfg d.energy d.dt (p.px x y)
            (noiseOf d (charge d (p.px x y)) (fun i => nth N g ((y * p.w + x) * channels d + i))) else o x y,
       if d.cfg.simulateNoise then skip N (p.w * h * channels d) (N.fresh, g) else (N.fresh, g)) := by
    intro h
    induction h with
    | zero => simp [skip]
    | succ h ih =>
      rw [List.range_succ, List.foldl_append, ih]
      simp only [List.foldl_cons, List.foldl_nil, readRow_eq]
      refine Prod.ext ?_ ?_
      · funext x' y'
        by_cases h1 : x' < p.w ∧ y' = h
        · obtain ⟨hx, rfl⟩ := h1
          simp only [hx, and_self, if_true, Nat.lt_succ_self]
          congr 1
          by_cases hs : d.cfg.simulateNoise = true
          · simp only [hs, if_true, ← skip_add, nth]
            congr 1
            funext i
            congr 3
            ring
          · funext i; simp only [hs, if_false, noiseOf, Bool.false_eq_true]
        · by_cases h2 : x' < p.w ∧ y' < h
          · dsimp only
            rw [if_neg h1, if_pos h2, if_pos ⟨h2.1, by omega⟩]
          · dsimp only
            rw [if_neg h1, if_neg h2, if_neg (by omega)]
      · by_cases hs : d.cfg.simulateNoise = true
        · simp only [hs, if_true, ← skip_add]
          congr 1
          ring
        · simp only [hs, if_false, Bool.false_eq_true]
  unfold readout
  rw [key]
  refine Prod.ext rfl ?_
  simp only []
  split <;> rfl

/-- **C149 in full.** Reading out the same picture with the same sensor again gives the same response. -/
def C149_full : Prop := ∀ (G : Type) (N : Normal G) (n : Nat) (d : Set n) (p : Power n) (o : Nat → Nat → List XF) (g : G)
  (before : List (Set n × Power n)), (readout N d p o (process N g before)).1 = (readout N d p o g).1

/-- **C149 (partial).** What each value of a readout is. Values are counted row by row, pixel by pixel, bin by bin; the value
number `k` has its own pair of standard normal numbers `z`, the `k`-th of this readout. Its charge `q` (power times exposure
over photon energy times quantum efficiency, of one bin for RGB, summed over the bins otherwise) is joined by the dark charge
`a`, by shot noise of deviation `√(q + a)` and by read noise; the pixels of the response outside the picture are left alone. -/
theorem C149_value_partial (N : Normal G) (d : Set n) (p : Power n) (o : Nat → Nat → List XF) (g : G)
    (e q : Fin n → ℝ) (t well gain bias dark rn : ℝ) (he : ∀ b, d.energy b = .fin (e b)) (he0 : ∀ b, 0 < e b)
    (hq : ∀ b, d.cfg.qe b = .fin (q b)) (hq0 : ∀ b, 0 ≤ q b) (ht : d.dt = .fin t) (ht0 : 0 ≤ t)
    (hw : d.cfg.fullWell = .fin well) (hg : d.cfg.gain = .fin gain) (hg0 : 0 < gain) (hb : d.cfg.bias = .fin bias)
    (hd : d.cfg.darkCurrent = .fin dark) (hd0 : 0 ≤ dark) (hr : d.cfg.readNoise = .fin rn) (hbit : 0 < d.cfg.bitDepth)
    (hp : ∀ x y b, 0 ≤ p.px x y b) (x y : Nat) :
    (readout N d p o g).1 x y =
      if x < p.w ∧ y < p.h then
        let el := fun b => p.px x y b * t / e b * q b
        let value := fun (i : Nat) (c : ℝ) =>
          let z := nth N g ((y * p.w + x) * channels d + i)
          let c' := if d.cfg.simulateNoise then c + dark * t + Real.sqrt (c + dark * t) * z.1 + rn * z.2 else c
          XF.fin (max 0 (min (2 ^ d.cfg.bitDepth - 1) (min c' well / gain + if d.cfg.simulateNoise then bias else 0)) /
            (2 ^ d.cfg.bitDepth - 1))
        if d.rgb then List.ofFn fun b : Fin n => value b (el b) else [value 0 (∑ b, el b)]
      else o x y := by
  rw [readout_eq]
  simp only []
  by_cases hin : x < p.w ∧ y < p.h
  swap
  · rw [if_neg hin, if_neg hin]
  rw [if_pos hin, if_pos hin]
  have el : ∀ b, electrons (.fin (p.px x y b)) d.dt (d.energy b) (d.cfg.qe b) = .fin (p.px x y b * t / e b * q b) := by
    intro b
    unfold electrons
    rw [hq b, ht, he b]
    simp only [XF.mul]
    rw [XF.div_fin _ _ (he0 b).ne']
  have el0 : ∀ b, 0 ≤ p.px x y b * t / e b * q b := fun b =>
    mul_nonneg (div_nonneg (mul_nonneg (hp x y b) ht0) (he0 b).le) (hq0 b)
  have tot : total (fun b => electrons (.fin (p.px x y b)) d.dt (d.energy b) (d.cfg.qe b)) =
      .fin (∑ b, p.px x y b * t / e b * q b) := by
    simp only [el]
    exact total_fin _
  have hch : ∃ f : Nat → ℝ, (∀ i, 0 ≤ f i) ∧ (∀ i, charge d (p.px x y) i = .fin (f i)) ∧
      (d.rgb = true → ∀ b : Fin n, f b = p.px x y b * t / e b * q b) ∧
      (d.rgb = false → f 0 = ∑ b, p.px x y b * t / e b * q b) := by
    by_cases hrgb : d.rgb = true
    · refine ⟨fun i => if h : i < n then p.px x y ⟨i, h⟩ * t / e ⟨i, h⟩ * q ⟨i, h⟩ else 0, ?_, ?_, ?_, ?_⟩
      · intro i; simp only []; split
        · exact el0 _
        · exact le_refl _
      · intro i
        unfold charge
        simp only [hrgb, if_true]
        split
        · exact el _
        · rfl
      · intro _ b; simp
      · intro h; rw [hrgb] at h; exact absurd h (by simp)
    · have hrgb' : d.rgb = false := by simpa using hrgb
      refine ⟨fun _ => ∑ b, p.px x y b * t / e b * q b, fun _ => Finset.sum_nonneg fun b _ => el0 b, ?_, ?_, fun _ => rfl⟩
      · intro i
        unfold charge
        simp only [hrgb', Bool.false_eq_true, if_false]
        exact tot
      · intro h; rw [hrgb'] at h; exact absurd h (by simp)
  obtain ⟨f, f0, hf, f1, f2⟩ := hch
  have hnoise : noiseOf d (charge d (p.px x y)) (fun i => nth N g ((y * p.w + x) * channels d + i)) =
      fun k => (.fin (if d.cfg.simulateNoise then Real.sqrt (f k + dark * t) * (nth N g ((y * p.w + x) * channels d + k)).1 else 0),
        .fin (if d.cfg.simulateNoise then rn * (nth N g ((y * p.w + x) * channels d + k)).2 else 0)) := by
    funext k
    unfold noiseOf
    by_cases hs : d.cfg.simulateNoise = true
    · simp only [hs, if_true, hf k, darkE, hd, ht, XF.mul, XF.fin_add, sqrtX, hr]
      rw [if_neg (not_lt.mpr (add_nonneg (f0 k) (mul_nonneg hd0 ht0)))]
    · simp only [hs, Bool.false_eq_true, if_false]
  rw [hnoise, show d.energy = fun b => .fin (e b) from funext he, ht,
    Frame.C139_sensor d.rgb d.cfg e t (p.px x y) _ _ well gain bias dark q hw hg hg0 hb hd hq he0 hbit]
  simp only [Frame.digital]
  by_cases hrgb : d.rgb = true
  · simp only [hrgb, if_true]
    congr 1
    funext b
    rw [f1 hrgb b]
    by_cases hs : d.cfg.simulateNoise = true
    · simp only [hs, if_true, add_assoc]
    · simp only [hs, Bool.false_eq_true, if_false, add_zero]
  · have hrgb' : d.rgb = false := by simpa using hrgb
    simp only [hrgb', Bool.false_eq_true, if_false]
    rw [f2 hrgb']
    by_cases hs : d.cfg.simulateNoise = true
    · simp only [hs, if_true, add_assoc]
    · simp only [hs, Bool.false_eq_true, if_false, add_zero]

/-- **C149 (partial).** Whatever the generator does and however it got there, every value of the response lies in [0,1]. -/
theorem C149_range_partial (N : Normal G) (d : Set n) (p : Power n) (o : Nat → Nat → List XF) (g : G)
    (e : Fin n → ℝ) (t : ℝ) (hv : Valid d.cfg) (he : ∀ b, d.energy b = .fin (e b)) (he0 : ∀ b, 0 < e b)
    (ht : d.dt = .fin t) (ht0 : 0 ≤ t) (hp : ∀ x y b, 0 ≤ p.px x y b) (x y : Nat) (hx : x < p.w) (hy : y < p.h) :
    ((readout N d p o g).1 x y).length = channels d ∧ ∀ v ∈ (readout N d p o g).1 x y, ∃ r : ℝ, v = .fin r ∧ 0 ≤ r ∧ r ≤ 1 := by
  obtain ⟨well, hw, _⟩ := hv.fullWell
  obtain ⟨gain, hg, hg0⟩ := hv.gain
  obtain ⟨bias, hb, _⟩ := hv.bias
  obtain ⟨dark, hd, hd0⟩ := hv.darkCurrent
  obtain ⟨rn, hr, _⟩ := hv.readNoise
  choose q hq hq0 _ using hv.qe
  rw [C149_value_partial N d p o g e q t well gain bias dark rn he he0 hq hq0 ht ht0 hw hg hg0 hb hd hd0 hr hv.bitDepth hp x y,
    if_pos ⟨hx, hy⟩]
  have hM := maxDn_pos d.cfg hv.bitDepth
  unfold maxDn at hM
  have r01 : ∀ c : ℝ, 0 ≤ max 0 (min (2 ^ d.cfg.bitDepth - 1) c) / ((2 : ℝ) ^ d.cfg.bitDepth - 1) ∧
      max 0 (min (2 ^ d.cfg.bitDepth - 1) c) / ((2 : ℝ) ^ d.cfg.bitDepth - 1) ≤ 1 := by
    intro c
    refine ⟨div_nonneg (le_max_left _ _) hM.le, ?_⟩
    rw [div_le_one hM]
    exact max_le hM.le (min_le_left _ _)
  dsimp only
  unfold channels
  cases d.rgb with
  | true =>
    simp only [if_true, List.length_ofFn, true_and]
    intro v hv
    obtain ⟨b, rfl⟩ := (List.mem_ofFn' _ _).mp hv
    exact ⟨_, rfl, (r01 _).1, (r01 _).2⟩
  | false =>
    simp only [Bool.false_eq_true, if_false, List.length_singleton, true_and, List.mem_singleton]
    intro v hv
    exact ⟨_, hv, (r01 _).1, (r01 _).2⟩

/-- **C149 (partial).** Without noise the full claim holds: nothing read before matters, and the readout leaves the generator
alone, so that it does not matter to anything read later either. -/
theorem C149_quiet_partial (N : Normal G) (d : Set n) (p : Power n) (o : Nat → Nat → List XF) (g g' : G)
    (hs : d.cfg.simulateNoise = false) :
    (readout N d p o g).1 = (readout N d p o g').1 ∧ (readout N d p o g).2 = g := by
  rw [readout_eq, readout_eq]
  constructor
  · have : ∀ q (z z' : Nat → ℝ × ℝ), noiseOf d q z = noiseOf d q z' := by
      intro q z z'
      funext i
      unfold noiseOf
      rw [hs]
      rfl
    funext x y
    dsimp only
    rw [this _ _ (fun i => nth N g' ((y * p.w + x) * channels d + i))]
  · rw [hs]
    rfl

/-- **C149 (partial).** With noise, a readout depends on the earlier ones only through how many noisy values each of them had:
whatever the scenes, exposures, gains and other settings were, the same sequence of numbers gives the same response. In
particular the first readout of every process has the same noise. -/
theorem C149_history_partial (N : Normal G) (d : Set n) (p : Power n) (o : Nat → Nat → List XF) (g : G)
    (before before' : List (Set n × Power n))
    (h : before.map (fun r => drawn r.1 r.2) = before'.map (fun r => drawn r.1 r.2)) :
    readout N d p o (process N g before) = readout N d p o (process N g before') := by
  have key : ∀ (l l' : List (Set n × Power n)) (g : G), l.map (fun r => drawn r.1 r.2) = l'.map (fun r => drawn r.1 r.2) →
      process N g l = process N g l' := by
    intro l
    induction l with
    | nil =>
      intro l' g h
      cases l' with
      | nil => rfl
      | cons => simp at h
    | cons a l ih =>
      intro l' g h
      cases l' with
      | nil => simp at h
      | cons b l' =>
        simp only [List.map_cons, List.cons.injEq] at h
        have e : (readout N a.1 a.2 (fun _ _ => []) g).2 = (readout N b.1 b.2 (fun _ _ => []) g).2 := by
          have step : ∀ r : Set n × Power n, (readout N r.1 r.2 (fun _ _ => []) g).2 = (skip N (drawn r.1 r.2) (N.fresh, g)).2 := by
            intro r
            rw [readout_eq]
            unfold drawn
            by_cases hs : r.1.cfg.simulateNoise = true
            · simp only [hs, if_true]
            · simp only [hs, Bool.false_eq_true, if_false, skip]
          rw [step, step, h.1]
        show process N (readout N a.1 a.2 (fun _ _ => []) g).2 l = process N (readout N b.1 b.2 (fun _ _ => []) g).2 l'
        rw [e]
        exact ih _ _ h.2
  rw [key before before' g h]

/-- A library whose generator counts: every draw takes the next number, `0` or `1` in turn by fours. -/
def counting : Normal Nat := ⟨Unit, (), fun _ k => (if k % 4 < 2 then 0 else 1, (), k + 1)⟩

/-- A grey sensor with noise: 1000 electrons of full well, read noise 1, no dark current, no bias, 8 bits, gain 1. -/
def exSet : Set 1 := ⟨false, ⟨1, 1, .fin 1, .fin 1, fun _ => .fin 1, .fin 1000, true, .fin 1, .fin 0, .fin 0, 8, .fin 1, .fin 0⟩,
  fun _ => .fin 1, .fin 1⟩

/-- One pixel that collects 100 electrons. -/
def exPower : Power 1 := ⟨1, 1, fun _ _ _ => 100⟩

theorem ex_value (g : Nat) : (readout counting exSet exPower (fun _ _ => []) g).1 0 0 =
    [.fin (max 0 (min 255 (min (100 + 10 * (nth counting g 0).1 + (nth counting g 0).2) 1000)) / 255)] := by
  rw [C149_value_partial counting exSet exPower (fun _ _ => []) g (fun _ => 1) (fun _ => 1) 1 1000 1 0 0 1 (fun _ => rfl)
    (fun _ => one_pos) (fun _ => rfl) (fun _ => zero_le_one) rfl zero_le_one rfl rfl one_pos rfl rfl (le_refl _) rfl
    (by simp [exSet]) (fun _ _ _ => by simp [exPower])]
  have h10 : Real.sqrt 100 = 10 := by rw [show (100 : ℝ) = 10 ^ 2 by norm_num, Real.sqrt_sq (by norm_num)]
  simp [exSet, exPower, channels, h10]
  norm_num

/-- **C149 violated.** The generator outlives the call: the second readout of the same picture differs from the first. -/
theorem C149_violated : ¬ C149_full := by
  intro h
  have h := congrFun (congrFun (h Nat counting 1 exSet exPower (fun _ _ => []) 0 [(exSet, exPower)]) 0) 0
  have e : process counting 0 [(exSet, exPower)] = 2 := by
    simp only [process]
    rw [readout_eq]
    simp [exSet, exPower, channels, skip, pair, counting]
  rw [e, ex_value, ex_value] at h
  simp [nth, skip, pair, counting] at h
  norm_num at h

/-- Non-vacuity of `C149_range_partial`. -/
example : Valid exSet.cfg where
  res := ⟨by simp [exSet], by simp [exSet]⟩
  pitch := ⟨⟨1, rfl, one_pos⟩, ⟨1, rfl, one_pos⟩⟩
  qe := fun _ => ⟨1, rfl, zero_le_one, le_refl _⟩
  fullWell := ⟨1000, rfl, by norm_num⟩
  readNoise := ⟨1, rfl, zero_le_one⟩
  darkCurrent := ⟨0, rfl, le_refl _⟩
  bias := ⟨0, rfl, le_refl _⟩
  bitDepth := by simp [exSet]
  gain := ⟨1, rfl, one_pos⟩
  unityDb := ⟨0, rfl⟩

/-- Non-vacuity of `C149_history_partial`: different settings and scenes, the same number of values. -/
example : [(exSet, exPower)].map (fun r => drawn r.1 r.2) =
    [({ exSet with cfg := { exSet.cfg with gain := .fin 7 } }, { exPower with px := fun _ _ _ => 3 })].map (fun r => drawn r.1 r.2) := rfl

end
end Huira.Sensor.Noise
