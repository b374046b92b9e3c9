import Verif.Image.Props
import Verif.Render.FrameModel
import Mathlib.Tactic.FieldSimp
import Mathlib.Tactic.FinCases
import Mathlib.Algebra.Order.BigOperators.Ring.Finset
set_option linter.unusedSimpArgs false
/-!
# C139: from the enabled channels and the camera's settings to the pictures
-/
namespace Huira.Frame
open Huira.FrameBuffer (Channel Store)
noncomputable section
open Classical Finset

variable {n : Nat}

/-! ### Specification -/

/-- The last value requested for a kind of setting in a history; `none`: never requested. -/
def lastAsk {α : Type} (p : Op n → Option α) : List (Op n) → Option α
  | [] => none
  | o :: os => (lastAsk p os).or (p o)

/-- The channels that live in the received-power picture. -/
def asksPower : Op n → Option Bool
  | .enable .receivedDirect on => some on
  | .enable .receivedIndirect on => some on
  | .enable .receivedPower on => some on
  | .enable .sensorResponse on => some on
  | _ => none

def asksSensor : Op n → Option Bool
  | .enable .sensorResponse on => some on
  | _ => none

def asksConvolution : Op n → Option Bool
  | .convolution on => some on
  | _ => none

/-- Whether a call leaves the camera with a PSF (`none`: it does not touch it). -/
def asksPsf : Op n → Option Bool
  | .setPsf _ => some true
  | .deletePsf => some false
  | .aperturePsf on _ => some on
  | _ => none

/-- A new camera and a frame buffer made for it. -/
def fresh (n w h : Nat) : Cam n × Buf n := (Cam.new n w h, Buf.new n w h)

/-- The property at full strength: whatever was enabled and however the camera was set up, a render either refuses (the
resolution changed) or completes. -/
def C139_full : Prop :=
  ∀ (n w h : Nat) (ops : List (Op n)) (d : Readout n) (s : Scene n),
    render (after (fresh n w h) ops).1 d s (after (fresh n w h) ops).2 ≠ .undefined

/-! ### Histories -/

theorem after_append (s : Cam n × Buf n) (a b : List (Op n)) : after s (a ++ b) = after (after s a) b := by
  unfold after; rw [List.foldl_append]

theorem lastAsk_append {α : Type} (p : Op n → Option α) (a b : List (Op n)) :
    lastAsk p (a ++ b) = (lastAsk p b).or (lastAsk p a) := by
  induction a with
  | nil => simp [lastAsk]
  | cons o a ih => simp [lastAsk, ih, Option.or_assoc]

/-- What a history leaves, in terms of the last requests. -/
theorem after_spec (w h : Nat) (hw : 0 < w) (hh : 0 < h) (ops : List (Op n)) :
    (after (fresh n w h) ops).2.w = w ∧ (after (fresh n w h) ops).2.h = h ∧
    ((after (fresh n w h) ops).2.received.w, (after (fresh n w h) ops).2.received.h) =
      (if (lastAsk asksPower ops).getD false then (w, h) else (0, 0)) ∧
    ((after (fresh n w h) ops).2.sensor.w, (after (fresh n w h) ops).2.sensor.h) =
      (if (lastAsk asksSensor ops).getD false then (w, h) else (0, 0)) ∧
    (after (fresh n w h) ops).1.convolve = (lastAsk asksConvolution ops).getD false ∧
    (after (fresh n w h) ops).1.psf.isSome = (lastAsk asksPsf ops).getD false ∧
    ((after (fresh n w h) ops).1.fromAperture = true → (after (fresh n w h) ops).1.psf.isSome = true) := by
  induction ops using List.reverseRecOn with
  | nil => simp [after, fresh, Cam.new, Buf.new, lastAsk]
  | append_singleton ops o ih =>
    obtain ⟨i1, i2, i3, i4, i5, i6, i7⟩ := ih
    rw [after_append]
    generalize hs : after (fresh n w h) ops = s at *
    obtain ⟨c, b⟩ := s
    simp only [lastAsk_append]
    simp only at i1 i2 i3 i4 i5 i6 i7
    simp only [after, List.foldl_cons, List.foldl_nil]
    rw [Prod.mk.injEq] at i3 i4
    have dims : ∀ {α : Type} (p : Pic α) (f : α) (on : Bool),
        ((enablePic w h f on p).w, (enablePic w h f on p).h) = if on = true then (w, h) else (0, 0) := by
      intro α p f on
      unfold enablePic
      cases on with
      | false => rfl
      | true =>
        simp only [if_true]
        by_cases hd : p.w ≠ w ∨ p.h ≠ h
        · simp [hd]
        · push Not at hd
          simp [hd.1, hd.2]
    cases o with
    | enable ch on =>
      simp only [bufStep, camStep, i1, i2]
      cases ch <;> simp [Channel.touches, Channel.store, lastAsk, asksPower, asksSensor, asksConvolution, asksPsf, dims, i3, i4, i5, i6] <;>
        first | exact i7 | (rw [← i6]; exact i7)
    | aperturePsf on k =>
      cases on <;> simp [camStep, bufStep, lastAsk, asksPower, asksSensor, asksConvolution, asksPsf, i1, i2, i3, i4, i5]
    | rebuild k =>
      by_cases hf : c.fromAperture = true
      · have := i7 hf
        simp [camStep, bufStep, hf, lastAsk, asksPower, asksSensor, asksConvolution, asksPsf, i1, i2, i3, i4, i5, ← i6, this]
      · simp [camStep, bufStep, hf, lastAsk, asksPower, asksSensor, asksConvolution, asksPsf, i1, i2, i3, i4, i5, i6]
    | setGlare a =>
      cases a with
      | fin a =>
        by_cases ha : a < 0 ∨ a > 1
        · simp [camStep, bufStep, ha, lastAsk, asksPower, asksSensor, asksConvolution, asksPsf, i1, i2, i3, i4, i5, i6]
          rw [← i6]; exact i7
        · simp [camStep, bufStep, ha, lastAsk, asksPower, asksSensor, asksConvolution, asksPsf, i1, i2, i3, i4, i5, i6]
          rw [← i6]; exact i7
      | pinf =>
        simp [camStep, bufStep, lastAsk, asksPower, asksSensor, asksConvolution, asksPsf, i1, i2, i3, i4, i5, i6]
        rw [← i6]; exact i7
      | ninf =>
        simp [camStep, bufStep, lastAsk, asksPower, asksSensor, asksConvolution, asksPsf, i1, i2, i3, i4, i5, i6]
        rw [← i6]; exact i7
      | nan =>
        simp [camStep, bufStep, lastAsk, asksPower, asksSensor, asksConvolution, asksPsf, i1, i2, i3, i4, i5, i6]
        rw [← i6]; exact i7
    | _ =>
      simp [camStep, bufStep, lastAsk, asksPower, asksSensor, asksConvolution, asksPsf, i1, i2, i3, i4, i5, i6] <;>
        (rw [← i6]; exact i7)

/-! ### Specification of the pictures -/

/-- The resolution a call gives the camera. -/
def asksResolution : Op n → Option (Nat × Nat)
  | .resolution w h => some (w, h)
  | _ => none

/-- The veiling glare a call asks for: a fraction between 0 and 1, or none at all. Other values are refused. -/
def asksGlare : Op n → Option ℝ
  | .setGlare (.fin a) => if 0 ≤ a ∧ a ≤ 1 then some a else none
  | .noGlare => some 0
  | _ => none

/-- The kernel of a PSF is unchanged by half a turn. -/
def Psf.Symmetric (k : Psf n) : Prop := ∀ ch i j, i ≤ 2 * k.r → j ≤ 2 * k.r → k.ker ch (2 * k.r - i) (2 * k.r - j) = k.ker ch i j

/-- The light of a picture spread by a PSF, if there is one. -/
def spread (w h : Nat) (k : Option (Psf n)) (f : Fin n → Plane) (ch : Fin n) (x y : Int) : ℝ :=
  match k with
  | none => f ch x y
  | some k => Image.convolution w h (f ch) (2 * k.r + 1) (2 * k.r + 1) (k.ker ch) x y

/-- The point sources' light before any convolution. -/
def pointLight (s : Scene n) (psf : Option (Psf n)) (defocus : Bool) : Fin n → Plane :=
  if s.sources = 0 then fun _ _ _ => 0 else s.points psf defocus

/-! ### Lemmas -/

theorem res_spec (w h : Nat) (ops : List (Op n)) :
    ((after (fresh n w h) ops).1.w, (after (fresh n w h) ops).1.h) = (lastAsk asksResolution ops).getD (w, h) := by
  induction ops using List.reverseRecOn with
  | nil => simp [after, fresh, Cam.new, Buf.new, lastAsk]
  | append_singleton ops o ih =>
    rw [after_append, lastAsk_append]
    generalize after (fresh n w h) ops = s at *
    obtain ⟨c, b⟩ := s
    simp only [after, List.foldl_cons, List.foldl_nil] at ih ⊢
    cases o with
    | resolution w' h' => simp [camStep, lastAsk, asksResolution]
    | aperturePsf on k => cases on <;> simpa [camStep, lastAsk, asksResolution] using ih
    | rebuild k => by_cases hf : c.fromAperture = true <;> simpa [camStep, hf, lastAsk, asksResolution] using ih
    | setGlare a =>
      cases a with
      | fin a => by_cases ha : a < 0 ∨ a > 1 <;> simpa [camStep, ha, lastAsk, asksResolution] using ih
      | _ => simpa [camStep, lastAsk, asksResolution] using ih
    | _ => simpa [camStep, lastAsk, asksResolution] using ih

theorem glare_spec (w h : Nat) (ops : List (Op n)) :
    (after (fresh n w h) ops).1.alpha = (lastAsk asksGlare ops).getD 0 ∧
    ((after (fresh n w h) ops).1.glare = true ↔ 0 < (after (fresh n w h) ops).1.alpha) ∧
    0 ≤ (after (fresh n w h) ops).1.alpha ∧ (after (fresh n w h) ops).1.alpha ≤ 1 := by
  induction ops using List.reverseRecOn with
  | nil => simp [after, fresh, Cam.new, Buf.new, lastAsk]
  | append_singleton ops o ih =>
    rw [after_append, lastAsk_append]
    generalize after (fresh n w h) ops = s at *
    obtain ⟨c, b⟩ := s
    simp only [after, List.foldl_cons, List.foldl_nil] at ih ⊢
    cases o with
    | aperturePsf on k => cases on <;> simpa [camStep, lastAsk, asksGlare] using ih
    | rebuild k => by_cases hf : c.fromAperture = true <;> simpa [camStep, hf, lastAsk, asksGlare] using ih
    | noGlare => simp [camStep, lastAsk, asksGlare]
    | setGlare a =>
      cases a with
      | fin a =>
        by_cases ha : a < 0 ∨ a > 1
        · have : ¬ (0 ≤ a ∧ a ≤ 1) := by intro q; rcases ha with q' | q' <;> linarith [q.1, q.2]
          simpa [camStep, ha, this, lastAsk, asksGlare] using ih
        · have q : 0 ≤ a ∧ a ≤ 1 := by push Not at ha; exact ha
          simp [camStep, ha, lastAsk, asksGlare, q]
      | _ => simpa [camStep, lastAsk, asksGlare] using ih
    | _ => simpa [camStep, lastAsk, asksGlare] using ih

theorem blur_spec (w h : Nat) (k : Psf n) (hk : k.Symmetric) (f : Fin n → Plane) (ch : Fin n) (x y : Int)
    (hr : Image.InRange w h x y) : blur w h k f ch x y = spread w h (some k) f ch x y :=
  Image.C19_symmetric_partial w h (f ch) k.r k.r (k.ker ch) x y hr (hk ch)

theorem total_congr (w h : Nat) (f g : Plane) (hfg : ∀ x y, Image.InRange w h x y → f x y = g x y) :
    total w h f = total w h g := by
  unfold total
  refine sum_congr rfl fun y hy => sum_congr rfl fun x hx => hfg _ _ ?_
  rw [mem_range] at hx hy
  exact ⟨by omega, by omega, by omega, by omega⟩

/-- What `render` does once the resolution fits and the light is defined. -/
theorem render_done (c : Cam n) (d : Readout n) (s : Scene n) (b : Buf n) (hcw : c.w = b.w) (hch : c.h = b.h)
    (hb : hasPic b b.received) (hs : hasPic b b.sensor) {t p : Fin n → Plane} (ht : tracedPower c b.w b.h s = some t)
    (hp : pointPower c b.w b.h s = some p) :
    ∃ b', render c d s b = .done b' ∧ b'.w = b.w ∧ b'.h = b.h ∧ hasPic b' b'.received ∧ hasPic b' b'.sensor ∧
      (∀ x y ch, b'.received.px x y ch = veil c b.w b.h (fun x y => t ch x y + p ch x y) x y) ∧
      ∀ x y, Image.InRange b.w b.h x y →
        b'.sensor.px x y = sensorPixel d.rgb d.cfg d.energy d.dt (b'.received.px x y) (d.noise x y) := by
  have hn : ¬ (c.w ≠ b.w ∨ c.h ≠ b.h) := by simp [hcw, hch]
  obtain ⟨hb1, hb2⟩ := hb
  obtain ⟨hs1, hs2⟩ := hs
  have e1 : clearBuf b = { b with received := { b.received with px := fun _ _ _ => 0 }, sensor := { b.sensor with px := fun _ _ => [] } } := by
    unfold clearBuf hasPic; simp [hb1, hb2, hs1, hs2]
  unfold render
  rw [if_neg hn]
  simp only [e1]
  simp only [hasPic, hb1, hb2, and_self, if_true, ht, hp]
  simp only [readout, hs1, hs2, hb1, hb2, lt_irrefl, or_self, and_false, if_false]
  refine ⟨_, rfl, rfl, rfl, ⟨rfl, rfl⟩, ⟨rfl, rfl⟩, fun _ _ _ => rfl, fun x y hr => ?_⟩
  simp only
  rw [if_pos (show _ from ⟨hr.1, hr.2.1, hr.2.2.1, hr.2.2.2⟩)]

/-! ### Theorems -/

/-- A camera's sensor for the examples. -/
def exReadout (n : Nat) : Readout n :=
  ⟨false, Sensor.Config.default fun _ => 1 / 2, fun _ => .fin 1, .fin 1, fun _ _ _ => (.fin 0, .fin 0)⟩

/-- A scene for the examples: a bright pixel and one point source. -/
def exScene (n : Nat) : Scene n := ⟨fun _ x y => if x = 0 ∧ y = 0 then 1 else 0, 1, fun _ _ _ x y => if x = 1 ∧ y = 0 then 2 else 0⟩

/-- **C139.** A render refuses exactly when the camera's resolution is not the frame buffer's. -/
theorem C139_refused_iff (w h : Nat) (hw : 0 < w) (hh : 0 < h) (ops : List (Op n)) (d : Readout n) (s : Scene n) :
    render (after (fresh n w h) ops).1 d s (after (fresh n w h) ops).2 = .threw ↔
      (lastAsk asksResolution ops).getD (w, h) ≠ (w, h) := by
  obtain ⟨a1, a2, -⟩ := after_spec (n := n) w h hw hh ops
  have r := res_spec (n := n) w h ops
  generalize after (fresh n w h) ops = q at *
  obtain ⟨c, b⟩ := q
  simp only at a1 a2 r ⊢
  rw [← r]
  have nt : ∀ b', readout d b' ≠ .threw := by
    intro b'; unfold readout; split <;> simp
  unfold render
  rw [a1, a2]
  by_cases hc : c.w ≠ w ∨ c.h ≠ h
  · rw [if_pos hc]
    simp only [true_iff, ne_eq, Prod.mk.injEq]
    rcases hc with q | q
    · exact fun e => q e.1
    · exact fun e => q e.2
  · rw [if_neg hc]
    push Not at hc
    simp only [hc.1, hc.2, ne_eq, not_true_eq_false, iff_false]
    split
    · split
      · exact nt _
      · simp
    · exact nt _

/-- Non-vacuity: a camera whose resolution was changed after the frame buffer was made. -/
example (d : Readout 3) (s : Scene 3) :
    render (after (fresh 3 4 4) [.resolution 8 8]).1 d s (after (fresh 3 4 4) [.resolution 8 8]).2 = .threw := by
  rw [C139_refused_iff 4 4 (by norm_num) (by norm_num)]
  simp [lastAsk, asksResolution]

/-- **C139 (partial).** A render of matching resolution goes wrong exactly when received power was asked for and either
the sensor response was not, or the convolution was switched on for a camera without a point-spread function. Missing: in
these cases it writes outside a picture or reads through a null pointer. -/
theorem C139_undefined_iff_partial (w h : Nat) (hw : 0 < w) (hh : 0 < h) (ops : List (Op n)) (d : Readout n) (s : Scene n)
    (hres : (lastAsk asksResolution ops).getD (w, h) = (w, h)) :
    render (after (fresh n w h) ops).1 d s (after (fresh n w h) ops).2 = .undefined ↔
      lastAsk asksPower ops = some true ∧
        (lastAsk asksSensor ops ≠ some true ∨ (lastAsk asksConvolution ops = some true ∧ lastAsk asksPsf ops ≠ some true)) := by
  obtain ⟨a1, a2, a3, a4, a5, a6, -⟩ := after_spec (n := n) w h hw hh ops
  have r := res_spec (n := n) w h ops
  rw [hres] at r
  have gd : ∀ o : Option Bool, o = some true ↔ o.getD false = true := by
    intro o; cases o with
    | none => simp
    | some v => simp
  simp only [ne_eq, gd]
  generalize after (fresh n w h) ops = q at *
  obtain ⟨c, b⟩ := q
  simp only [Prod.mk.injEq] at a1 a2 a3 a4 a5 a6 r ⊢
  rw [← a5, ← a6]
  have hn : ¬ (c.w ≠ b.w ∨ c.h ≠ b.h) := by simp [r.1, r.2, a1, a2]
  have hw' : ¬ (0 = w) := by omega
  have hw'' : w ≠ 0 := by omega
  have hh'' : h ≠ 0 := by omega
  unfold render
  rw [if_neg hn]
  by_cases hp : (lastAsk asksPower ops).getD false = true
  · rw [if_pos hp, Prod.mk.injEq] at a3
    have hc1 : hasPic (clearBuf b) (clearBuf b).received := by
      unfold clearBuf hasPic; simp [a3, a1, a2]
    have e : (clearBuf b).w = w ∧ (clearBuf b).h = h ∧ (clearBuf b).received.w = w ∧ (clearBuf b).received.h = h ∧
        (clearBuf b).sensor.w = b.sensor.w ∧ (clearBuf b).sensor.h = b.sensor.h := by
      unfold clearBuf hasPic
      refine ⟨a1, a2, ?_, ?_, ?_, ?_⟩
      · simp only; split <;> exact a3.1
      · simp only; split <;> exact a3.2
      · simp only; split <;> rfl
      · simp only; split <;> rfl
    simp only [if_pos hc1, hp, true_and]
    have ro : ∀ px, (readout d { clearBuf b with received := { (clearBuf b).received with px := px } } = .undefined ↔
        ¬ (lastAsk asksSensor ops).getD false = true) := by
      intro px
      unfold readout
      simp only [e.2.2.1, e.2.2.2.1, e.2.2.2.2.1, e.2.2.2.2.2]
      by_cases hs : (lastAsk asksSensor ops).getD false = true
      · rw [if_pos hs, Prod.mk.injEq] at a4
        simp [a4.1, a4.2, hs]
      · rw [if_neg hs, Prod.mk.injEq] at a4
        have : w ≠ 0 ∧ h ≠ 0 := ⟨hw'', hh''⟩
        simp [a4.1, a4.2, hs, hw, hh, this]
    cases hv : c.convolve with
    | false =>
      have t1 : tracedPower c (clearBuf b).w (clearBuf b).h s = some s.traced := by simp [tracedPower, hv]
      have t2 : ∃ p, pointPower c (clearBuf b).w (clearBuf b).h s = some p := by
        unfold pointPower; simp only [hv, Bool.false_eq_true, and_false, if_false]; split <;> exact ⟨_, rfl⟩
      obtain ⟨p, t2⟩ := t2
      rw [t1, t2]
      simp only [ro, Bool.false_eq_true, false_and, or_false]
    | true =>
      cases hk : c.psf with
      | none =>
        have t1 : tracedPower c (clearBuf b).w (clearBuf b).h s = none := by simp [tracedPower, hv, hk]
        rw [t1]
        simp
      | some k =>
        have t1 : ∃ t, tracedPower c (clearBuf b).w (clearBuf b).h s = some t := by simp [tracedPower, hv, hk]
        have t2 : ∃ p, pointPower c (clearBuf b).w (clearBuf b).h s = some p := by
          unfold pointPower; simp only [hv, hk, Option.map_some]; split
          · exact ⟨_, rfl⟩
          · split <;> exact ⟨_, rfl⟩
        obtain ⟨t, t1⟩ := t1
        obtain ⟨p, t2⟩ := t2
        rw [t1, t2]
        simp only [ro, Option.isSome_some, not_true_eq_false, and_false, or_false]
  · rw [if_neg hp, Prod.mk.injEq] at a3
    have hc1 : ¬ hasPic (clearBuf b) (clearBuf b).received := by
      have : ¬ (0 = w ∧ 0 = h) := fun q => hw' q.1
      unfold clearBuf hasPic; simp [a3, a1, a2, this, hw']
    have e : (clearBuf b).received.w = 0 := by
      unfold clearBuf hasPic; simp only; split <;> exact a3.1
    simp only [if_neg hc1, hp]
    unfold readout
    simp [e]

/-- Non-vacuity: the usual set-up is none of these cases. -/
example : ¬ (lastAsk asksPower ([.enable .sensorResponse true] : List (Op 3)) = some true ∧
    (lastAsk asksSensor ([.enable .sensorResponse true] : List (Op 3)) ≠ some true ∨
      (lastAsk asksConvolution ([.enable .sensorResponse true] : List (Op 3)) = some true ∧
        lastAsk asksPsf ([.enable .sensorResponse true] : List (Op 3)) ≠ some true))) := by
  simp [lastAsk, asksPower, asksSensor, asksConvolution, asksPsf]

/-- **C139 (violated).** Received power alone: the sensor writes into a picture that is not there. -/
theorem C139_violated_channels (w h : Nat) (hw : 0 < w) (hh : 0 < h) (d : Readout n) (s : Scene n) :
    render (after (fresh n w h) [.enable .receivedPower true]).1 d s (after (fresh n w h) [.enable .receivedPower true]).2 =
      .undefined :=
  (C139_undefined_iff_partial w h hw hh _ d s (by simp [lastAsk, asksResolution])).2
    (by simp [lastAsk, asksPower, asksSensor])

/-- **C139 (violated).** The convolution switched on without a PSF, or the PSF deleted afterwards: a null pointer. -/
theorem C139_violated_psf (w h : Nat) (hw : 0 < w) (hh : 0 < h) (k : Psf n) (d : Readout n) (s : Scene n) :
    render (after (fresh n w h) [.enable .sensorResponse true, .aperturePsf true k, .convolution true, .aperturePsf false k]).1 d s
      (after (fresh n w h) [.enable .sensorResponse true, .aperturePsf true k, .convolution true, .aperturePsf false k]).2 =
      .undefined :=
  (C139_undefined_iff_partial w h hw hh _ d s (by simp [lastAsk, asksResolution])).2
    (by simp [lastAsk, asksPower, asksSensor, asksConvolution, asksPsf])

theorem C139_violated : ¬ C139_full := fun hf =>
  hf 3 1 1 _ (exReadout 3) (exScene 3) (C139_violated_channels 1 1 one_pos one_pos _ _)

/-- **C139.** Received power switched off after the sensor response was switched on: the render completes and the sensor
response is blank, whatever the scene. -/
theorem C139_blank_sensor (w h : Nat) (hw : 0 < w) (hh : 0 < h) (ops : List (Op n)) (d : Readout n) (s : Scene n)
    (hres : (lastAsk asksResolution ops).getD (w, h) = (w, h)) (hs : lastAsk asksSensor ops = some true)
    (hp : lastAsk asksPower ops = some false) :
    ∃ b, render (after (fresh n w h) ops).1 d s (after (fresh n w h) ops).2 = .done b ∧ b.sensor.w = w ∧ b.sensor.h = h ∧
      ∀ x y, b.sensor.px x y = [] := by
  obtain ⟨a1, a2, a3, a4, a5, a6, -⟩ := after_spec (n := n) w h hw hh ops
  have r := res_spec (n := n) w h ops
  rw [hres] at r
  rw [hs] at a4
  rw [hp] at a3
  generalize after (fresh n w h) ops = q at *
  obtain ⟨c, b⟩ := q
  simp only [Prod.mk.injEq, Option.getD_some, if_true, Bool.false_eq_true, if_false] at a1 a2 a3 a4 r ⊢
  have hn : ¬ (c.w ≠ b.w ∨ c.h ≠ b.h) := by simp [r.1, r.2, a1, a2]
  have hw'' : ¬ (0 = w) := by omega
  have e : clearBuf b = { b with sensor := { b.sensor with px := fun _ _ => [] } } := by
    unfold clearBuf hasPic; simp [a1, a2, a3, a4, hw'']
  unfold render
  rw [if_neg hn]
  simp only [e]
  simp only [hasPic, a1, a2, a3.1, a3.2, hw'', false_and, if_false]
  unfold readout
  simp only [a3.1, a3.2, ne_eq, not_true_eq_false, false_and, if_false]
  refine ⟨_, rfl, a4.1, a4.2, fun x y => ?_⟩
  have : ¬ (0 ≤ x ∧ x < ((0 : Nat) : Int) ∧ 0 ≤ y ∧ y < ((0 : Nat) : Int)) := by omega
  simp only [if_neg this]

/-- Non-vacuity: both calls. -/
example : lastAsk asksSensor ([.enable .sensorResponse true, .enable .receivedPower false] : List (Op 3)) = some true ∧
    lastAsk asksPower ([.enable .sensorResponse true, .enable .receivedPower false] : List (Op 3)) = some false := by
  simp [lastAsk, asksPower, asksSensor]

/-- **C139.** What the pictures show. With sensor response and received power enabled and the resolution unchanged, a
camera that convolves with a symmetric PSF, or does not convolve, gives: the light of the surfaces and of the point sources,
spread by the PSF, a fraction `α` of it replaced by its mean over the picture, and a sensor response that is the readout
of that picture pixel by pixel. `α` is the last accepted glare. -/
theorem C139_pictures (w h : Nat) (hw : 0 < w) (hh : 0 < h) (ops : List (Op n)) (d : Readout n) (s : Scene n)
    (hres : (lastAsk asksResolution ops).getD (w, h) = (w, h)) (hs : lastAsk asksSensor ops = some true)
    (hp : lastAsk asksPower ops = some true) (k : Option (Psf n))
    (hk : match k with
      | none => lastAsk asksConvolution ops ≠ some true
      | some k => lastAsk asksConvolution ops = some true ∧ (after (fresh n w h) ops).1.psf = some k ∧ k.Symmetric) :
    ∃ b, render (after (fresh n w h) ops).1 d s (after (fresh n w h) ops).2 = .done b ∧
      b.received.w = w ∧ b.received.h = h ∧ b.sensor.w = w ∧ b.sensor.h = h ∧
      ∀ x y, Image.InRange w h x y →
        (∀ ch, b.received.px x y ch =
          let c := (after (fresh n w h) ops).1
          let α := (lastAsk asksGlare ops).getD 0
          let L : Plane := fun x y => spread w h k s.traced ch x y +
            spread w h (if c.defocus then k else none) (pointLight s c.psf c.defocus) ch x y
          (1 - α) * L x y + α * (total w h L / (w * h))) ∧
        b.sensor.px x y = sensorPixel d.rgb d.cfg d.energy d.dt (b.received.px x y) (d.noise x y) := by
  obtain ⟨a1, a2, a3, a4, a5, a6, -⟩ := after_spec (n := n) w h hw hh ops
  have r := res_spec (n := n) w h ops
  obtain ⟨g1, g2, g3, -⟩ := glare_spec (n := n) w h ops
  rw [hres] at r
  rw [hs] at a4
  rw [hp] at a3
  generalize after (fresh n w h) ops = q at *
  obtain ⟨c, b⟩ := q
  simp only [Prod.mk.injEq, Option.getD_some, if_true] at a1 a2 a3 a4 a5 r g1 g2 g3 hk ⊢
  have light : ∃ t p, tracedPower c b.w b.h s = some t ∧ pointPower c b.w b.h s = some p ∧
      (∀ ch x y, Image.InRange w h x y → t ch x y = spread w h k s.traced ch x y) ∧
      (∀ ch x y, Image.InRange w h x y → p ch x y =
        spread w h (if c.defocus = true then k else none) (pointLight s c.psf c.defocus) ch x y) := by
    rw [a1, a2]
    cases k with
    | none =>
      have hv : c.convolve = false := by
        rw [a5]; cases hx : lastAsk asksConvolution ops with
        | none => rfl
        | some v => cases v with
          | true => exact absurd hx hk
          | false => rfl
      refine ⟨s.traced, pointLight s c.psf c.defocus, by simp [tracedPower, hv], ?_, fun ch x y _ => rfl, fun ch x y _ => ?_⟩
      · unfold pointPower pointLight; simp only [hv, Bool.false_eq_true, and_false, if_false]; split <;> rfl
      · simp [spread]
    | some k =>
      obtain ⟨k1, k2, k3⟩ := hk
      have hv : c.convolve = true := by rw [a5, k1]; rfl
      cases hd : c.defocus with
      | false =>
        refine ⟨blur w h k s.traced, pointLight s c.psf false, by simp [tracedPower, hv, k2], ?_,
          fun ch x y hr => blur_spec w h k k3 _ ch x y hr, fun ch x y _ => by simp [spread]⟩
        unfold pointPower pointLight; simp only [hd, Bool.false_eq_true, false_and, if_false]; split <;> rfl
      | true =>
        by_cases hz : s.sources = 0
        · refine ⟨blur w h k s.traced, fun _ _ _ => 0, by simp [tracedPower, hv, k2], by simp [pointPower, hz],
            fun ch x y hr => blur_spec w h k k3 _ ch x y hr, fun ch x y _ => ?_⟩
          simp [spread, pointLight, hz, Image.convolution, Image.zeroExt]
        · refine ⟨blur w h k s.traced, blur w h k (s.points c.psf true), by simp [tracedPower, hv, k2],
            by simp [pointPower, hz, hd, hv, k2], fun ch x y hr => blur_spec w h k k3 _ ch x y hr, fun ch x y hr => ?_⟩
          rw [if_pos rfl, blur_spec w h k k3 _ ch x y hr]
          simp [pointLight, hz]
  obtain ⟨t, p, h1, h2, h3, h4⟩ := light
  obtain ⟨b', e, e1, e2, e3, e4, e5, e6⟩ := render_done c d s b (by rw [r.1, a1]) (by rw [r.2, a2])
    ⟨by rw [a3.1, a1], by rw [a3.2, a2]⟩ ⟨by rw [a4.1, a1], by rw [a4.2, a2]⟩ h1 h2
  refine ⟨b', e, by rw [e3.1, e1, a1], by rw [e3.2, e2, a2], by rw [e4.1, e1, a1], by rw [e4.2, e2, a2], fun x y hr => ⟨fun ch => ?_, ?_⟩⟩
  · rw [e5, ← g1, a1, a2]
    have et := total_congr w h (fun x y => t ch x y + p ch x y) (fun x y => spread w h k s.traced ch x y +
      spread w h (if c.defocus = true then k else none) (pointLight s c.psf c.defocus) ch x y)
      (fun x y hr => by rw [h3 ch x y hr, h4 ch x y hr])
    unfold veil
    by_cases hg : c.glare = true
    · rw [if_pos hg, et]
      simp only [h3 ch x y hr, h4 ch x y hr]
      push_cast
      ring
    · have z : c.alpha = 0 := le_antisymm (not_lt.1 fun q => hg (g2.2 q)) g3
      rw [if_neg hg, z]
      simp only [h3 ch x y hr, h4 ch x y hr]
      ring
  · exact e6 x y (by rw [a1, a2]; exact hr)

end
end Huira.Frame
