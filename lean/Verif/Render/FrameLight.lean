import Verif.Render.FrameProps
import Verif.Sensor.Props
set_option linter.unusedSimpArgs false
/-!
# C139: energy, superposition and the history of a render
-/
namespace Huira.Frame
open Huira.FrameBuffer (Channel Store)
noncomputable section
open Classical Finset

variable {n : Nat}

/-- Non-vacuity of `C139_pictures`: an aperture PSF in use, glare of one tenth. -/
example : let k : Psf 3 := ⟨1, fun _ i j => if i = 1 ∧ j = 1 then 1 / 2 else 1 / 16⟩
    let ops : List (Op 3) := [.enable .sensorResponse true, .aperturePsf true k, .convolution true, .setGlare (.fin (1 / 10))]
    (lastAsk asksResolution ops).getD (4, 4) = (4, 4) ∧ lastAsk asksSensor ops = some true ∧
    lastAsk asksPower ops = some true ∧ lastAsk asksConvolution ops = some true ∧
    (after (fresh 3 4 4) ops).1.psf = some k ∧ k.Symmetric ∧ (lastAsk asksGlare ops).getD 0 = 1 / 10 := by
  refine ⟨by simp [lastAsk, asksResolution], by simp [lastAsk, asksSensor], by simp [lastAsk, asksPower],
    by simp [lastAsk, asksConvolution], ?_, ?_, ?_⟩
  · simp only [after, List.foldl_cons, List.foldl_nil, camStep, if_true]
    split <;> rfl
  · intro ch i j hi hj
    simp only at hi hj ⊢
    interval_cases i <;> interval_cases j <;> norm_num
  · have : (0 : ℝ) ≤ 10⁻¹ ∧ (10⁻¹ : ℝ) ≤ 1 := by norm_num
    simp [lastAsk, asksGlare, this]

/-! ### Totals -/

theorem total_add (w h : Nat) (f g : Plane) : total w h (fun x y => f x y + g x y) = total w h f + total w h g := by
  unfold total; simp [sum_add_distrib]

theorem total_smul (w h : Nat) (a : ℝ) (f : Plane) : total w h (fun x y => a * f x y) = a * total w h f := by
  unfold total; simp [mul_sum]

theorem total_const (w h : Nat) (a : ℝ) : total w h (fun _ _ => a) = w * h * a := by
  unfold total; simp; ring

theorem total_nonneg (w h : Nat) (f : Plane) (hf : ∀ x y, Image.InRange w h x y → 0 ≤ f x y) : 0 ≤ total w h f := by
  unfold total
  refine sum_nonneg fun y hy => sum_nonneg fun x hx => hf _ _ ?_
  rw [mem_range] at hx hy
  exact ⟨by omega, by omega, by omega, by omega⟩

theorem total_le (w h : Nat) (f g : Plane) (hf : ∀ x y, Image.InRange w h x y → f x y ≤ g x y) : total w h f ≤ total w h g := by
  unfold total
  refine sum_le_sum fun y hy => sum_le_sum fun x hx => hf _ _ ?_
  rw [mem_range] at hx hy
  exact ⟨by omega, by omega, by omega, by omega⟩

/-- Glare moves light about, it neither makes nor loses any. -/
theorem total_glare (w h : Nat) (hw : 0 < w) (hh : 0 < h) (α : ℝ) (L : Plane) :
    total w h (fun x y => (1 - α) * L x y + α * (total w h L / (w * h))) = total w h L := by
  rw [total_add w h (fun x y => (1 - α) * L x y) (fun _ _ => α * (total w h L / (w * h))), total_smul, total_const]
  have : (w : ℝ) ≠ 0 := by positivity
  have : (h : ℝ) ≠ 0 := by positivity
  field_simp
  ring

/-- A sum over a line of a shifted picture that is blank outside. -/
theorem sum_shift_le (w : Nat) (g : Int → ℝ) (hg : ∀ i : Int, 0 ≤ i → i < w → 0 ≤ g i) (d : Int) :
    ∑ x ∈ range w, (if 0 ≤ (x : Int) - d ∧ (x : Int) - d < w then g (x - d) else 0) ≤ ∑ x ∈ range w, g x := by
  rw [← sum_filter]
  have e : ∀ x ∈ (range w).filter (fun x : Nat => 0 ≤ (x : Int) - d ∧ (x : Int) - d < w), g ((x : Int) - d) =
      (fun i : Nat => g i) ((x : Int) - d).toNat := by
    intro x hx
    rw [mem_filter] at hx
    simp only
    rw [Int.toNat_of_nonneg hx.2.1]
  rw [sum_congr rfl e, ← sum_image (f := fun i : Nat => g i) (g := fun x : Nat => ((x : Int) - d).toNat)]
  · refine sum_le_sum_of_subset_of_nonneg ?_ ?_
    · intro i hi
      rw [mem_image] at hi
      obtain ⟨x, hx, rfl⟩ := hi
      rw [mem_filter] at hx
      rw [mem_range]
      omega
    · intro i hi _
      rw [mem_range] at hi
      exact hg _ (by omega) (by omega)
  · intro x hx y hy hxy
    simp only [coe_filter, Set.mem_setOf_eq] at hx hy
    simp only at hxy
    omega

/-- The light of a shifted picture that still falls on the frame. -/
theorem total_shift_le (w h : Nat) (f : Plane) (hf : ∀ x y, Image.InRange w h x y → 0 ≤ f x y) (dx dy : Int) :
    total w h (fun x y => Image.zeroExt w h f (x - dx) (y - dy)) ≤ total w h f := by
  unfold total Image.zeroExt
  have e1 : ∀ y ∈ range h, ∑ x ∈ range w, (if 0 ≤ (x : Int) - dx ∧ (x : Int) - dx < w ∧ 0 ≤ (y : Int) - dy ∧ (y : Int) - dy < h then
        f (x - dx) (y - dy) else 0) ≤
      if 0 ≤ (y : Int) - dy ∧ (y : Int) - dy < h then ∑ x ∈ range w, f x (y - dy) else 0 := by
    intro y _
    by_cases hy : 0 ≤ (y : Int) - dy ∧ (y : Int) - dy < h
    · rw [if_pos hy]
      refine le_trans (le_of_eq (sum_congr rfl fun x _ => ?_)) (sum_shift_le w (fun x => f x (y - dy))
        (fun i h0 h1 => hf _ _ ⟨h0, h1, hy.1, hy.2⟩) dx)
      by_cases hx : 0 ≤ (x : Int) - dx ∧ (x : Int) - dx < w
      · rw [if_pos hx, if_pos ⟨hx.1, hx.2, hy.1, hy.2⟩]
      · rw [if_neg hx, if_neg (fun q => hx ⟨q.1, q.2.1⟩)]
    · rw [if_neg hy]
      refine le_of_eq (sum_eq_zero fun x _ => ?_)
      rw [if_neg (fun q => hy ⟨q.2.2.1, q.2.2.2⟩)]
  refine le_trans (sum_le_sum e1) ?_
  exact sum_shift_le h (fun y => ∑ x ∈ range w, f x y) (fun i h0 h1 => sum_nonneg fun x hx =>
    hf _ _ ⟨by omega, by rw [mem_range] at hx; omega, h0, h1⟩) dy

/-- Spreading by a kernel without negative values that sums to at most 1 does not make light. -/
theorem total_spread_le (w h : Nat) (k : Psf n) (f : Fin n → Plane) (ch : Fin n)
    (hf : ∀ x y, Image.InRange w h x y → 0 ≤ f ch x y) (hk : ∀ i j, 0 ≤ k.ker ch i j)
    (h1 : ∑ j ∈ range (2 * k.r + 1), ∑ i ∈ range (2 * k.r + 1), k.ker ch i j ≤ 1) :
    total w h (spread w h (some k) f ch) ≤ total w h (f ch) := by
  have t0 := total_nonneg w h (f ch) hf
  have e : total w h (spread w h (some k) f ch) =
      ∑ j ∈ range (2 * k.r + 1), ∑ i ∈ range (2 * k.r + 1),
        total w h (fun x y => Image.zeroExt w h (f ch) (x - ((i : Int) - ((2 * k.r + 1) / 2 : Nat)))
          (y - ((j : Int) - ((2 * k.r + 1) / 2 : Nat)))) * k.ker ch i j := by
    unfold total spread Image.convolution
    simp only
    simp_rw [sum_mul]
    rw [sum_congr rfl fun y _ => sum_comm]
    rw [sum_comm]
    refine sum_congr rfl fun j _ => ?_
    rw [sum_congr rfl fun y _ => sum_comm]
    rw [sum_comm]
  rw [e]
  calc _ ≤ ∑ j ∈ range (2 * k.r + 1), ∑ i ∈ range (2 * k.r + 1), total w h (f ch) * k.ker ch i j :=
        sum_le_sum fun j _ => sum_le_sum fun i _ => mul_le_mul_of_nonneg_right (total_shift_le w h _ hf _ _) (hk i j)
    _ = total w h (f ch) * ∑ j ∈ range (2 * k.r + 1), ∑ i ∈ range (2 * k.r + 1), k.ker ch i j := by
        rw [mul_sum]; exact sum_congr rfl fun j _ => by rw [mul_sum]
    _ ≤ total w h (f ch) * 1 := mul_le_mul_of_nonneg_left h1 t0
    _ = _ := mul_one _

/-- Power is conserved. Without convolution, whatever the glare, the received power adds up to the light of the surfaces and
the point sources; a PSF can only lose light at the edges. -/
theorem C139_power (w h : Nat) (hw : 0 < w) (hh : 0 < h) (ops : List (Op n)) (d : Readout n) (s : Scene n)
    (hres : (lastAsk asksResolution ops).getD (w, h) = (w, h)) (hs : lastAsk asksSensor ops = some true)
    (hp : lastAsk asksPower ops = some true) (k : Option (Psf n))
    (hk : match k with
      | none => lastAsk asksConvolution ops ≠ some true
      | some k => lastAsk asksConvolution ops = some true ∧ (after (fresh n w h) ops).1.psf = some k ∧ k.Symmetric) :
    ∃ b, render (after (fresh n w h) ops).1 d s (after (fresh n w h) ops).2 = .done b ∧ ∀ ch,
      (k = none → total w h (fun x y => b.received.px x y ch) = total w h (s.traced ch) +
        total w h (pointLight s (after (fresh n w h) ops).1.psf (after (fresh n w h) ops).1.defocus ch)) ∧
      ((∀ x y, Image.InRange w h x y → 0 ≤ s.traced ch x y) →
        (∀ x y, Image.InRange w h x y →
          0 ≤ pointLight s (after (fresh n w h) ops).1.psf (after (fresh n w h) ops).1.defocus ch x y) →
        (∀ k', k = some k' → (∀ i j, 0 ≤ k'.ker ch i j) ∧
          ∑ j ∈ range (2 * k'.r + 1), ∑ i ∈ range (2 * k'.r + 1), k'.ker ch i j ≤ 1) →
        total w h (fun x y => b.received.px x y ch) ≤ total w h (s.traced ch) +
          total w h (pointLight s (after (fresh n w h) ops).1.psf (after (fresh n w h) ops).1.defocus ch)) := by
  obtain ⟨b, e, -, -, -, -, hb⟩ := C139_pictures w h hw hh ops d s hres hs hp k hk
  refine ⟨b, e, fun ch => ?_⟩
  generalize (after (fresh n w h) ops).1 = c at *
  have et : total w h (fun x y => b.received.px x y ch) =
      total w h (spread w h k s.traced ch) +
        total w h (spread w h (if c.defocus then k else none) (pointLight s c.psf c.defocus) ch) := by
    rw [total_congr w h _ _ (fun x y hr => (hb x y hr).1 ch)]
    simp only
    rw [total_glare w h hw hh, ← total_add]
  rw [et]
  constructor
  · rintro rfl
    simp only [ite_self]
    rfl
  · intro h1 h2 h3
    refine add_le_add ?_ ?_
    · cases k with
      | none => exact le_refl _
      | some k => exact total_spread_le w h k _ ch h1 (h3 k rfl).1 (h3 k rfl).2
    · cases hd : c.defocus with
      | false => rw [hd] at h2; exact le_refl _
      | true =>
        rw [hd] at h2
        rw [if_pos rfl]
        cases k with
        | none => exact le_refl _
        | some k => exact total_spread_le w h k _ ch h2 (h3 k rfl).1 (h3 k rfl).2

/-- Non-vacuity: one surface pixel of power 1 and a star of power 2 give 3 in all, with a glare of one half. -/
example : ∃ b, render (after (fresh 1 2 2) [.enable .sensorResponse true, .setGlare (.fin (1 / 2))]).1 (exReadout 1) (exScene 1)
    (after (fresh 1 2 2) [.enable .sensorResponse true, .setGlare (.fin (1 / 2))]).2 = .done b ∧
    total 2 2 (fun x y => b.received.px x y 0) = 3 := by
  obtain ⟨b, e, hb⟩ := C139_power (n := 1) 2 2 (by norm_num) (by norm_num)
    [.enable .sensorResponse true, .setGlare (.fin (1 / 2))] (exReadout 1) (exScene 1)
    (by simp [lastAsk, asksResolution]) (by simp [lastAsk, asksSensor]) (by simp [lastAsk, asksPower]) none
    (by simp [lastAsk, asksConvolution])
  refine ⟨b, e, ?_⟩
  rw [(hb 0).1 rfl]
  simp [total, exScene, pointLight, sum_range_succ]
  norm_num

/-! ### Superposition -/

/-- The light of two scenes together. -/
def Scene.both (s t : Scene n) : Scene n :=
  ⟨fun ch x y => s.traced ch x y + t.traced ch x y, s.sources + t.sources,
    fun k f ch x y => s.points k f ch x y + t.points k f ch x y⟩

/-- A scene with all its light multiplied. -/
def Scene.brighter (a : ℝ) (s : Scene n) : Scene n :=
  ⟨fun ch x y => a * s.traced ch x y, s.sources, fun k f ch x y => a * s.points k f ch x y⟩

/-- Without point sources there is no light of point sources. -/
def Scene.Proper (s : Scene n) : Prop := s.sources = 0 → ∀ k f ch x y, s.points k f ch x y = 0

theorem spread_add (w h : Nat) (k : Option (Psf n)) (f g : Fin n → Plane) (ch : Fin n) (x y : Int) :
    spread w h k (fun ch x y => f ch x y + g ch x y) ch x y = spread w h k f ch x y + spread w h k g ch x y := by
  cases k with
  | none => rfl
  | some k =>
    simp only [spread, Image.convolution]
    rw [← sum_add_distrib]
    refine sum_congr rfl fun j _ => ?_
    rw [← sum_add_distrib]
    refine sum_congr rfl fun i _ => ?_
    unfold Image.zeroExt
    split <;> ring

theorem spread_mul (w h : Nat) (k : Option (Psf n)) (a : ℝ) (f : Fin n → Plane) (ch : Fin n) (x y : Int) :
    spread w h k (fun ch x y => a * f ch x y) ch x y = a * spread w h k f ch x y := by
  cases k with
  | none => rfl
  | some k =>
    simp only [spread, Image.convolution]
    rw [mul_sum]
    refine sum_congr rfl fun j _ => ?_
    rw [mul_sum]
    refine sum_congr rfl fun i _ => ?_
    unfold Image.zeroExt
    split <;> ring

theorem pointLight_proper (s : Scene n) (hs : s.Proper) (k : Option (Psf n)) (f : Bool) : pointLight s k f = s.points k f := by
  unfold pointLight
  by_cases h : s.sources = 0
  · rw [if_pos h]; funext ch x y; rw [hs h]
  · rw [if_neg h]

/-- **C139.** The received power of two scenes together is the sum of their received powers, and that of a scene whose light
is multiplied is multiplied, at every pixel, through PSF, defocus and glare. -/
theorem C139_superposition (w h : Nat) (hw : 0 < w) (hh : 0 < h) (ops : List (Op n)) (d : Readout n) (s t : Scene n)
    (a : ℝ) (ps : s.Proper) (pt : t.Proper)
    (hres : (lastAsk asksResolution ops).getD (w, h) = (w, h)) (hs : lastAsk asksSensor ops = some true)
    (hp : lastAsk asksPower ops = some true) (k : Option (Psf n))
    (hk : match k with
      | none => lastAsk asksConvolution ops ≠ some true
      | some k => lastAsk asksConvolution ops = some true ∧ (after (fresh n w h) ops).1.psf = some k ∧ k.Symmetric) :
    ∃ b1 b2 b3 b4, render (after (fresh n w h) ops).1 d s (after (fresh n w h) ops).2 = .done b1 ∧
      render (after (fresh n w h) ops).1 d t (after (fresh n w h) ops).2 = .done b2 ∧
      render (after (fresh n w h) ops).1 d (s.both t) (after (fresh n w h) ops).2 = .done b3 ∧
      render (after (fresh n w h) ops).1 d (s.brighter a) (after (fresh n w h) ops).2 = .done b4 ∧
      ∀ x y, Image.InRange w h x y → ∀ ch,
        b3.received.px x y ch = b1.received.px x y ch + b2.received.px x y ch ∧
        b4.received.px x y ch = a * b1.received.px x y ch := by
  obtain ⟨b1, e1, -, -, -, -, h1⟩ := C139_pictures w h hw hh ops d s hres hs hp k hk
  obtain ⟨b2, e2, -, -, -, -, h2⟩ := C139_pictures w h hw hh ops d t hres hs hp k hk
  obtain ⟨b3, e3, -, -, -, -, h3⟩ := C139_pictures w h hw hh ops d (s.both t) hres hs hp k hk
  obtain ⟨b4, e4, -, -, -, -, h4⟩ := C139_pictures w h hw hh ops d (s.brighter a) hres hs hp k hk
  refine ⟨b1, b2, b3, b4, e1, e2, e3, e4, fun x y hr ch => ?_⟩
  have p3 : (s.both t).Proper := by
    intro hz k f ch x y
    have q : s.sources = 0 ∧ t.sources = 0 := by
      have : s.sources + t.sources = 0 := hz
      omega
    show s.points k f ch x y + t.points k f ch x y = 0
    rw [ps q.1, pt q.2, add_zero]
  have p4 : (s.brighter a).Proper := by
    intro hz k f ch x y
    show a * s.points k f ch x y = 0
    rw [ps hz, mul_zero]
  rw [(h1 x y hr).1 ch, (h2 x y hr).1 ch, (h3 x y hr).1 ch, (h4 x y hr).1 ch]
  generalize (after (fresh n w h) ops).1 = c
  simp only [pointLight_proper _ ps, pointLight_proper _ pt, pointLight_proper _ p3, pointLight_proper _ p4]
  simp only [Scene.both, Scene.brighter, spread_add, spread_mul]
  simp only [← mul_add, total_smul, total_add]
  constructor <;> ring

/-- Non-vacuity. -/
example : (exScene 3).Proper := fun hz => absurd hz (by simp [exScene])

/-! ### The sensor -/

/-- The value of a pixel that collected `a` electrons: the well fills up, the gain converts electrons to digital numbers, the
bias is added, the converter clips at both ends, and the result is a fraction of full scale `M`. -/
def digital (well gain bias M a : ℝ) : ℝ := max 0 (min M (min a well / gain + bias)) / M

theorem foldl_fin (l : List ℝ) (a : ℝ) : (l.map XF.fin).foldl XF.add (.fin a) = .fin (a + l.sum) := by
  induction l generalizing a with
  | nil => simp
  | cons b l ih => rw [List.map_cons, List.foldl_cons, XF.fin_add, ih, List.sum_cons, add_assoc]

/-- **C139.** The value of a pixel of the sensor response, from the power it received: power times exposure over photon energy
times quantum efficiency are electrons, bin by bin for an RGB sensor and summed otherwise; with noise, the dark current, the
pixel's own shot and read noise and the bias are added. -/
theorem C139_sensor (rgb : Bool) (cfg : Sensor.Config n) (e : Fin n → ℝ) (t : ℝ) (power : Fin n → ℝ) (shot read : Nat → ℝ)
    (well g bias dark : ℝ) (q : Fin n → ℝ) (hw : cfg.fullWell = .fin well) (hg : cfg.gain = .fin g) (hg0 : 0 < g)
    (hb : cfg.bias = .fin bias) (hd : cfg.darkCurrent = .fin dark) (hq : ∀ b, cfg.qe b = .fin (q b)) (he : ∀ b, 0 < e b)
    (hbit : 0 < cfg.bitDepth) :
    sensorPixel rgb cfg (fun b => .fin (e b)) (.fin t) power (fun k => (.fin (shot k), .fin (read k))) =
      let electrons := fun b => power b * t / e b * q b
      let extra := fun k => if cfg.simulateNoise then dark * t + shot k + read k else 0
      let value := fun a => XF.fin (digital well g (if cfg.simulateNoise then bias else 0) (2 ^ cfg.bitDepth - 1) a)
      if rgb then List.ofFn fun b : Fin n => value (electrons b + extra b)
      else [value (∑ b, electrons b + extra 0)] := by
  have el : ∀ b, Sensor.electrons (.fin (power b)) (.fin t) (.fin (e b)) (cfg.qe b) = .fin (power b * t / e b * q b) := by
    intro b
    unfold Sensor.electrons
    rw [hq b]
    simp only [XF.mul]
    rw [XF.div_fin _ _ (he b).ne']
  have hM := Sensor.maxDn_pos cfg hbit
  have one : ∀ a sh rd : ℝ, Sensor.noiseAdc cfg (.fin a) (Sensor.darkE cfg (.fin t)) (.fin sh) (.fin rd) (Sensor.maxDn cfg) =
      .fin (digital well g (if cfg.simulateNoise then bias else 0) (2 ^ cfg.bitDepth - 1)
        (a + if cfg.simulateNoise then dark * t + sh + rd else 0)) := by
    intro a sh rd
    rw [Sensor.noiseAdc_eq, hw, hg]
    cases hs : cfg.simulateNoise with
    | true =>
      simp only [Sensor.acc, Sensor.darkE, hs, if_true, hb, hd, XF.mul, XF.fin_add]
      rw [Sensor.adc_fin _ _ _ _ _ hg0 hM]
      unfold Sensor.response digital Sensor.maxDn
      ring_nf
    | false =>
      simp only [Sensor.acc, Sensor.darkE, hs, Bool.false_eq_true, if_false, XF.fin_add]
      rw [Sensor.adc_fin _ _ _ _ _ hg0 hM]
      rfl
  unfold sensorPixel
  cases rgb with
  | true =>
    simp only [if_true]
    congr 1
    funext b
    rw [el, one]
  | false =>
    simp only [Bool.false_eq_true, if_false, Sensor.pixelMono]
    have tot : Sensor.total (fun b => Sensor.electrons (.fin (power b)) (.fin t) (.fin (e b)) (cfg.qe b)) =
        .fin (∑ b, power b * t / e b * q b) := by
      simp only [el]
      unfold Sensor.total
      rw [show (List.ofFn fun b => XF.fin (power b * t / e b * q b)) = (List.ofFn fun b => power b * t / e b * q b).map XF.fin by
        rw [List.map_ofFn]; rfl, foldl_fin, zero_add, List.sum_ofFn]
    rw [tot, one]

/-- Non-vacuity: a sensor without noise; 10 electrons at gain 2 on an 8 bit converter. -/
example : sensorPixel false (n := 1) ⟨8, 8, .fin 1, .fin 1, fun _ => .fin (1 / 2), .fin 1000, false, .fin 0, .fin 0, .fin 0, 8, .fin 2, .fin 0⟩
    (fun _ => .fin 1) (.fin 2) (fun _ => 10) (fun _ => (.fin 0, .fin 0)) = [.fin (5 / 255)] := by
  rw [C139_sensor false _ (fun _ => 1) 2 (fun _ => 10) (fun _ => 0) (fun _ => 0) 1000 2 0 0 (fun _ => 1 / 2) rfl rfl (by norm_num)
    rfl rfl (fun _ => rfl) (fun _ => one_pos) (by norm_num)]
  simp [digital]
  norm_num

/-! ### Histories of renders -/

theorem residue_aux (c c' : Cam n) (d d' : Readout n) (s s' : Scene n) (b b1 : Buf n) (hw : 0 < b.w) (hh : 0 < b.h)
    (hr : hasPic b b.received ∨ (b.received.w = 0 ∧ b.received.h = 0))
    (hs : hasPic b b.sensor ∨ (b.sensor.w = 0 ∧ b.sensor.h = 0)) (h : render c d s b = .done b1) :
    render c' d' s' b1 = render c' d' s' b := by
  have key : b1.w = b.w ∧ b1.h = b.h ∧ clearBuf b1 = clearBuf b := by
    unfold render at h
    split at h
    · exact absurd h (by simp)
    · simp only at h
      have n0 : ¬ (0 = b.w ∧ 0 = b.h) := by omega
      have n1 : b.w ≠ 0 ∧ b.h ≠ 0 := by omega
      rcases hr with ⟨r1, r2⟩ | ⟨r1, r2⟩ <;> rcases hs with ⟨s1, s2⟩ | ⟨s1, s2⟩
      · have e : clearBuf b = { b with received := ⟨b.w, b.h, fun _ _ _ => 0⟩, sensor := ⟨b.w, b.h, fun _ _ => []⟩ } := by
          unfold clearBuf hasPic; simp [r1, r2, s1, s2]
        rw [e] at h ⊢
        simp only [hasPic, and_self, if_true] at h
        split at h
        · simp only [readout, lt_irrefl, or_self, and_false, if_false, Out.done.injEq] at h
          rw [← h]
          refine ⟨rfl, rfl, ?_⟩
          unfold clearBuf hasPic; simp
        · exact absurd h (by simp)
      · have e : clearBuf b = { b with received := ⟨b.w, b.h, fun _ _ _ => 0⟩ } := by
          unfold clearBuf hasPic; simp [r1, r2, s1, s2, n0]
        rw [e] at h
        simp only [hasPic, and_self, if_true] at h
        split at h
        · simp [readout, s1, s2, hw, hh, n1] at h
        · exact absurd h (by simp)
      · have e : clearBuf b = { b with sensor := ⟨b.w, b.h, fun _ _ => []⟩ } := by
          unfold clearBuf hasPic; simp [r1, r2, s1, s2, n0]
        rw [e] at h ⊢
        have : ∀ x y : Int, ¬ (0 ≤ x ∧ x < ((0 : Nat) : Int) ∧ 0 ≤ y ∧ y < ((0 : Nat) : Int)) := by intro x y; omega
        simp only [hasPic, r1, r2, n0, if_false, readout, ne_eq, not_true_eq_false, false_and, this, Out.done.injEq] at h
        rw [← h]
        refine ⟨rfl, rfl, ?_⟩
        unfold clearBuf hasPic; simp [r1, r2, n0]
      · have e : clearBuf b = b := by
          unfold clearBuf hasPic; simp [r1, r2, s1, s2, n0]
        rw [e] at h ⊢
        have : ∀ x y : Int, ¬ (0 ≤ x ∧ x < ((0 : Nat) : Int) ∧ 0 ≤ y ∧ y < ((0 : Nat) : Int)) := by intro x y; omega
        simp only [hasPic, r1, r2, n0, if_false, readout, ne_eq, not_true_eq_false, false_and, this, Out.done.injEq] at h
        rw [← h]
        exact ⟨rfl, rfl, e⟩
  unfold render
  rw [key.1, key.2.1, key.2.2]

/-- **C139.** A render leaves nothing of earlier ones: into a frame buffer already used for another scene it gives what it
would have given in the same frame buffer before. -/
theorem C139_no_residue (w h : Nat) (hw : 0 < w) (hh : 0 < h) (ops : List (Op n)) (c c' : Cam n) (d d' : Readout n)
    (s s' : Scene n) (b1 : Buf n) (h1 : render c d s (after (fresh n w h) ops).2 = .done b1) :
    render c' d' s' b1 = render c' d' s' (after (fresh n w h) ops).2 := by
  obtain ⟨a1, a2, a3, a4, -⟩ := after_spec (n := n) w h hw hh ops
  generalize (after (fresh n w h) ops).2 = b at *
  refine residue_aux c c' d d' s s' b b1 (by rw [a1]; exact hw) (by rw [a2]; exact hh) ?_ ?_ h1
  · unfold hasPic
    rw [a1, a2]
    split at a3
    · left; rw [Prod.mk.injEq] at a3; exact a3
    · right; rw [Prod.mk.injEq] at a3; exact a3
  · unfold hasPic
    rw [a1, a2]
    split at a4
    · left; rw [Prod.mk.injEq] at a4; exact a4
    · right; rw [Prod.mk.injEq] at a4; exact a4

/-- Non-vacuity: a first render that completes. -/
example : ∃ b1, render (after (fresh 3 2 2) [.enable .sensorResponse true]).1 (exReadout 3) (exScene 3)
    (after (fresh 3 2 2) [.enable .sensorResponse true]).2 = .done b1 := by
  obtain ⟨b, e, -⟩ := C139_power (n := 3) 2 2 (by norm_num) (by norm_num)
    [.enable .sensorResponse true] (exReadout 3) (exScene 3)
    (by simp [lastAsk, asksResolution]) (by simp [lastAsk, asksSensor]) (by simp [lastAsk, asksPower]) none
    (by simp [lastAsk, asksConvolution])
  exact ⟨b, e⟩

/-- **C139.** What a new camera and frame buffer start from: an in-focus camera without PSF, convolution and glare, and no pictures. -/
theorem C139_start (w h : Nat) (hw : 0 < w) (d : Readout n) (s : Scene n) :
    (fresh n w h).1.defocus = false ∧ (fresh n w h).1.psf = none ∧
    ∃ b, render (fresh n w h).1 d s (fresh n w h).2 = .done b ∧ b.received.w = 0 ∧ b.received.h = 0 ∧ b.sensor.w = 0 ∧ b.sensor.h = 0 := by
  refine ⟨rfl, rfl, ?_⟩
  have n0 : ¬ (0 = w ∧ 0 = h) := by omega
  have e : clearBuf (Buf.new n w h) = Buf.new n w h := by
    unfold clearBuf hasPic Buf.new; simp [n0]
  unfold render fresh
  rw [if_neg (by simp [Cam.new, Buf.new])]
  simp only [e]
  rw [if_neg (show ¬ hasPic (Buf.new n w h) (Buf.new n w h).received from n0)]
  simp [readout, Buf.new]

/-- A call that sets the camera's scatter. -/
def Op.isScatter : Op n → Prop
  | .setScatter _ _ _ _ => True
  | .noScatter => True
  | _ => False

/-- The camera without its scatter settings. -/
def Cam.plain (c : Cam n) : Cam n := { c with scatter := false, scatterFraction := 0, scatterExponent := 2, scatterR0 := 1 / 2, scatterRadius := 0 }

theorem step_plain (c : Cam n) (o : Op n) : (camStep c o).plain = (camStep c.plain o).plain := by
  cases o with
  | aperturePsf on k => cases on <;> rfl
  | rebuild k => by_cases hf : c.fromAperture = true <;> simp [camStep, Cam.plain, hf]
  | setGlare a =>
    cases a with
    | fin a => by_cases ha : a < 0 ∨ a > 1 <;> simp [camStep, Cam.plain, ha]
    | _ => rfl
  | _ => rfl

theorem after_plain (ops : List (Op n)) (c c' : Cam n) (b : Buf n) (hc : c.plain = c'.plain) :
    (after (c, b) ops).1.plain = (after (c', b) (ops.filter fun o => ¬ o.isScatter)).1.plain ∧
    (after (c, b) ops).2 = (after (c', b) (ops.filter fun o => ¬ o.isScatter)).2 := by
  induction ops generalizing c c' b with
  | nil => exact ⟨hc, rfl⟩
  | cons o ops ih =>
    by_cases ho : o.isScatter
    · rw [List.filter_cons_of_neg (by simpa using ho)]
      have e : bufStep b o = b ∧ (camStep c o).plain = c.plain := by
        cases o <;> first | exact ⟨rfl, rfl⟩ | exact ho.elim
      have := ih (camStep c o) c' b (by rw [e.2, hc])
      simp only [after, List.foldl_cons] at this ⊢
      rw [e.1]
      exact this
    · rw [List.filter_cons_of_pos (by simpa using ho)]
      have := ih (camStep c o) (camStep c' o) (bufStep b o) (by rw [step_plain, hc, ← step_plain])
      simp only [after, List.foldl_cons] at this ⊢
      exact this

/-- **C139.** The scatter of `set_harvey_shack_scatter` shows in no picture: a history and the same history without its
scatter calls render alike, for every scene. -/
theorem C139_scatter_ignored (w h : Nat) (ops : List (Op n)) (d : Readout n) (s : Scene n) :
    render (after (fresh n w h) ops).1 d s (after (fresh n w h) ops).2 =
      render (after (fresh n w h) (ops.filter fun o => ¬ o.isScatter)).1 d s
        (after (fresh n w h) (ops.filter fun o => ¬ o.isScatter)).2 := by
  obtain ⟨e1, e2⟩ := after_plain ops (Cam.new n w h) (Cam.new n w h) (Buf.new n w h) rfl
  have rp : ∀ (c : Cam n) (b : Buf n), render c d s b = render c.plain d s b := fun c b => rfl
  rw [rp (after (fresh n w h) ops).1, rp (after (fresh n w h) (ops.filter fun o => ¬ o.isScatter)).1]
  unfold fresh
  rw [e1, e2]

/-- Non-vacuity: a scatter call that is left out. -/
example : ([.enable .sensorResponse true, .setScatter (1 / 2) 2 1 8] : List (Op 3)).filter (fun o => ¬ o.isScatter) =
    [.enable .sensorResponse true] := by
  simp [Op.isScatter]

end
end Huira.Frame
