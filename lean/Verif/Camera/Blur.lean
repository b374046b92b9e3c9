import Mathlib.Analysis.SpecialFunctions.Trigonometric.Basic
import Mathlib.Tactic.Positivity

set_option linter.unusedSimpArgs false
/-!
# The blur a camera gives to points of light

`render()` spreads a star or unresolved object over a disc when the camera is out of focus, and over the point-spread
function otherwise (renderer.ipp 664-672). Both are computed when certain settings are made and kept. This file follows
them through every history of camera settings.

Exact reals; infinite focus distances are `none`. Not modelled here: the kernels themselves (`Camera/Aperture`, `Camera/Airy`),
settings that concern neither blur (distortion, glare, resolution, noise), NaN and infinite arguments, what a refused call
leaves behind (`Camera/State`, C39).
-/
namespace Huira.Blur

noncomputable section

/-! ## The camera -/

/-- A point-spread function: the user's own (`set_psf<T>`), or an Airy disc made by the aperture with the f-number, pixel
pitches, radius and number of banks it was made for (airy_disk.ipp 20-31, circular_aperture.ipp 105-112). -/
inductive Psf (K : Type)
  | user (k : K)
  | airy (fnumber px py : ℝ) (radius banks : ℤ)

/-- The members of `CameraModel` (camera_model.hpp 159-168), of its sensor and of its circular aperture that matter. -/
structure Cam (K : Type) where
  /-- `focal_length_` -/
  focal : ℝ
  /-- `diameter_` and `radius_` of the aperture (circular_aperture.hpp 49-51) -/
  diam : ℝ
  radius : ℝ
  /-- `pixel_pitch()` of the sensor -/
  px : ℝ
  py : ℝ
  /-- `d_` -/
  focus : Option ℝ
  /-- `psf_` -/
  psf : Option (Psf K)
  /-- `use_aperture_psf_` -/
  useAp : Bool
  /-- `defocus_cache_.radius` of the aperture (aperture.hpp 52-58) -/
  disc : ℝ

/-- The calls. -/
inductive Call (K : Type)
  /-- `set_focal_length` -/
  | focal (f : ℝ)
  /-- `set_fstop` -/
  | fstop (n : ℝ)
  /-- `set_aperture<CircularAperture>(diameter)` -/
  | aperture (d : ℝ)
  /-- `configure_sensor_from_pitch`, `configure_sensor_from_size`, `set_sensor<T>` (with positive pitches): the pitches they arrive at -/
  | pitch (px py : ℝ)
  /-- `set_intrinsics`, `set_intrinsic_matrix` -/
  | intrinsics (fx fy anchor : ℝ)
  /-- `set_focus_distance`; `none`: infinity -/
  | focus (d : Option ℝ)
  /-- `set_diopters` -/
  | diopters (q : ℝ)
  /-- `set_psf<T>` -/
  | userPsf (k : K)
  /-- `use_aperture_psf(radius, banks)`, `use_aperture_psf(true)` with 64 and 16 -/
  | aperturePsf (radius banks : ℤ)
  /-- `use_aperture_psf(false)` -/
  | apertureOff
  /-- `delete_psf` -/
  | deletePsf

variable {K : Type}

/-- `aperture_->make_psf(f, px, py, radius, banks)` (circular_aperture.ipp 105-112) -/
def Cam.make (c : Cam K) (radius banks : ℤ) : Psf K := .airy (c.focal / c.diam) c.px c.py radius banks

/-- `if (use_aperture_psf_) psf_ = make_psf(..., psf_->get_radius(), psf_->get_banks())` (camera_model.ipp 46-51, 578-583).
The radius and banks of a user's own function, and of none, never matter: `use_aperture_psf_` is set only with an Airy disc
(`C156_never_null`). -/
def Cam.remake (c : Cam K) : Cam K :=
  if c.useAp then
    match c.psf with
    | some (.airy _ _ _ r b) => { c with psf := some (c.make r b) }
    | _ => c
  else c

/-- `get_diopters` (camera_model.ipp 442-448) -/
def Cam.diopters (c : Cam K) : ℝ :=
  match c.focus with
  | none => 0
  | some d => 1 / d

/-- `build_defocus_kernel` (aperture.ipp 8-39) with `get_bounding_radius` (circular_aperture.ipp 114-118) -/
def Cam.refocus (c : Cam K) : Cam K :=
  let blurMeters := |c.diopters| * c.focal * c.radius
  let blurPixels := blurMeters / min c.px c.py
  { c with disc := if blurPixels < 1 / 2 then 0 else blurPixels }

/-- `set_focus_distance` (camera_model.ipp 400-415); `none` when it throws -/
def Cam.setFocus (c : Cam K) (d : Option ℝ) : Option (Cam K) :=
  if ∃ x, d = some x ∧ |x| < 1e-12 then none else some (Cam.refocus { c with focus := d })

/-- One call; `none` when it throws. -/
def Cam.step (c : Cam K) : Call K → Option (Cam K)
  | .focal f => if f ≤ 0 then none else some (Cam.remake { c with focal := f })  -- camera_model.ipp 33-52
  | .fstop n =>  -- camera_model.ipp 573-584, circular_aperture.ipp 33-39
    let d := c.focal / n
    let area := Real.pi * (d * d) / 4
    let diam := Real.sqrt (4 * area / Real.pi)
    some (Cam.remake { c with diam := diam, radius := diam / 2 })
  | .aperture d => some { c with diam := d, radius := d / 2, disc := 0 }  -- camera_model.ipp 290-295: a new object
  | .pitch px py => if px ≤ 0 ∨ py ≤ 0 then none else some { c with px := px, py := py }  -- sensor_model.ipp 52-63
  | .intrinsics fx fy a =>  -- camera_model.ipp 245-270; set_sensor_size gives the same pitches again
    if a / fx ≤ 0 ∨ a / fy ≤ 0 then none else some { c with focal := a, px := a / fx, py := a / fy }
  | .focus d => c.setFocus d
  | .diopters q => c.setFocus (if |q| < 1e-12 then none else some (1 / q))  -- camera_model.ipp 426-435
  | .userPsf k => some { c with psf := some (.user k), useAp := false }  -- camera_model.ipp 304-310
  | .aperturePsf r b => some { c with useAp := true, psf := some (c.make r b) }  -- camera_model.ipp 317-325
  | .apertureOff => some { c with psf := none, useAp := false }  -- camera_handle.ipp 338-346
  | .deletePsf => some { c with psf := none, useAp := false }  -- camera_model.ipp 330-335

/-- A new camera: 50 mm, f/2.8, 8.5 µm pixels (camera_model.ipp 15-26, camera_model.hpp 159-168, sensor_model.hpp 27-28). -/
def fresh : Cam K := ⟨0.05, 0.05 / 2.8, 0.05 / 2.8 / 2, 8.5e-6, 8.5e-6, none, none, false, 0⟩

/-- All calls in turn. -/
def Cam.run (c : Cam K) : List (Call K) → Option (Cam K)
  | [] => some c
  | o :: os => (c.step o).bind fun c' => c'.run os

/-! ## What the user has asked for -/

/-- the point-spread function asked for -/
inductive Want (K : Type)
  | nothing
  | own (k : K)
  | ofAperture (radius banks : ℤ)

/-- The settings as the user made them. -/
structure Told (K : Type) where
  focal : ℝ
  diam : ℝ
  px : ℝ
  py : ℝ
  focus : Option ℝ
  want : Want K

/-- What a call tells: an f-stop `n` is a diameter of `focal / n`. -/
def Told.hear (t : Told K) : Call K → Told K
  | .focal f => { t with focal := f }
  | .fstop n => { t with diam := |t.focal / n| }
  | .aperture d => { t with diam := d }
  | .pitch px py => { t with px := px, py := py }
  | .intrinsics fx fy a => { t with focal := a, px := a / fx, py := a / fy }
  | .focus d => { t with focus := d }
  | .diopters q => { t with focus := if |q| < 1e-12 then none else some (1 / q) }
  | .userPsf k => { t with want := .own k }
  | .aperturePsf r b => { t with want := .ofAperture r b }
  | .apertureOff => { t with want := match t.want with | .ofAperture _ _ => .nothing | w => w }
  | .deletePsf => { t with want := .nothing }

def asNew : Told K := ⟨0.05, 0.05 / 2.8, 8.5e-6, 8.5e-6, none, .nothing⟩

/-- the settings after a history -/
def told (h : List (Call K)) : Told K := h.foldl Told.hear asNew

/-- The radius, in pixels, of the disc a point at infinity is spread over: the aperture's radius times focal length over
focus distance, in units of the finer pixel pitch; nothing below half a pixel. -/
def discDue (t : Told K) : ℝ :=
  let r := (match t.focus with | none => 0 | some d => |1 / d|) * t.focal * (t.diam / 2) / min t.px t.py
  if r < 1 / 2 then 0 else r

/-- The point-spread function that is due. -/
def psfDue (t : Told K) : Option (Psf K) :=
  match t.want with
  | .nothing => none
  | .own k => some (.user k)
  | .ofAperture r b => some (.airy (t.focal / t.diam) t.px t.py r b)

/-- C156: after every accepted history the blur is that of the current settings. -/
def C156_full (K : Type) : Prop :=
  ∀ (h : List (Call K)) (c : Cam K), fresh.run h = some c → c.disc = discDue (told h) ∧ c.psf = psfDue (told h)

/-! ## Following the settings -/

theorem run_append (c : Cam K) (a b : List (Call K)) : c.run (a ++ b) = (c.run a).bind fun c' => c'.run b := by
  induction a generalizing c with
  | nil => rfl
  | cons o os ih =>
    simp only [List.cons_append, Cam.run]
    cases c.step o with
    | none => rfl
    | some c' => simp only [Option.bind_some]; exact ih c'

theorem told_append (a b : List (Call K)) : told (a ++ b) = b.foldl Told.hear (told a) := by
  simp [told, List.foldl_append]

/-- the settings proper: those no call forgets -/
structure Same (c : Cam K) (t : Told K) : Prop where
  focal : c.focal = t.focal
  diam : c.diam = t.diam
  radius : c.radius = t.diam / 2
  px : c.px = t.px
  py : c.py = t.py
  focus : c.focus = t.focus

theorem diam_of_fstop (d : ℝ) : Real.sqrt (4 * (Real.pi * (d * d) / 4) / Real.pi) = |d| := by
  have : 4 * (Real.pi * (d * d) / 4) / Real.pi = d * d := by
    field_simp
  rw [this, Real.sqrt_mul_self_eq_abs]

theorem remake_fields (c : Cam K) : c.remake.focal = c.focal ∧ c.remake.diam = c.diam ∧ c.remake.radius = c.radius ∧
    c.remake.px = c.px ∧ c.remake.py = c.py ∧ c.remake.focus = c.focus ∧ c.remake.disc = c.disc ∧
    c.remake.useAp = c.useAp := by
  unfold Cam.remake
  split
  · split <;> simp
  · simp

theorem setFocus_some {c c' : Cam K} {d : Option ℝ} (h : c.setFocus d = some c') :
    c' = Cam.refocus { c with focus := d } := by
  unfold Cam.setFocus at h
  split_ifs at h
  exact (Option.some.inj h).symm

theorem same_step {c c' : Cam K} {t : Told K} (o : Call K) (hs : Same c t) (h : c.step o = some c') :
    Same c' (t.hear o) := by
  obtain ⟨h1, h2, h3, h4, h5, h6⟩ := hs
  cases o with
  | focal f =>
    simp only [Cam.step] at h
    split_ifs at h
    obtain rfl := Option.some.inj h
    obtain ⟨r1, r2, r3, r4, r5, r6, _⟩ := remake_fields { c with focal := f }
    exact ⟨r1, r2.trans h2, r3.trans h3, r4.trans h4, r5.trans h5, r6.trans h6⟩
  | fstop n =>
    simp only [Cam.step, diam_of_fstop] at h
    obtain rfl := Option.some.inj h
    obtain ⟨r1, r2, r3, r4, r5, r6, _⟩ := remake_fields { c with diam := |c.focal / n|, radius := |c.focal / n| / 2 }
    refine ⟨r1.trans h1, r2.trans ?_, r3.trans ?_, r4.trans h4, r5.trans h5, r6.trans h6⟩ <;>
      simp [Told.hear, h1]
  | aperture d => obtain rfl := Option.some.inj h; exact ⟨h1, rfl, rfl, h4, h5, h6⟩
  | pitch px py =>
    simp only [Cam.step] at h
    split_ifs at h
    obtain rfl := Option.some.inj h
    exact ⟨h1, h2, h3, rfl, rfl, h6⟩
  | intrinsics fx fy a =>
    simp only [Cam.step] at h
    split_ifs at h
    obtain rfl := Option.some.inj h
    exact ⟨rfl, h2, h3, rfl, rfl, h6⟩
  | focus d => obtain rfl := setFocus_some h; exact ⟨h1, h2, h3, h4, h5, rfl⟩
  | diopters q => obtain rfl := setFocus_some h; exact ⟨h1, h2, h3, h4, h5, rfl⟩
  | userPsf k => obtain rfl := Option.some.inj h; exact ⟨h1, h2, h3, h4, h5, h6⟩
  | aperturePsf r b => obtain rfl := Option.some.inj h; exact ⟨h1, h2, h3, h4, h5, h6⟩
  | apertureOff => obtain rfl := Option.some.inj h; exact ⟨h1, h2, h3, h4, h5, h6⟩
  | deletePsf => obtain rfl := Option.some.inj h; exact ⟨h1, h2, h3, h4, h5, h6⟩

theorem same_run (h : List (Call K)) : ∀ (c c' : Cam K) (t : Told K), Same c t → c.run h = some c' →
    Same c' (h.foldl Told.hear t) := by
  induction h with
  | nil => intro c c' t hs hr; obtain rfl := Option.some.inj hr; exact hs
  | cons o os ih =>
    intro c c' t hs hr
    simp only [Cam.run, Option.bind_eq_some_iff] at hr
    obtain ⟨c1, h1, h2⟩ := hr
    exact ih c1 c' _ (same_step o hs h1) h2

theorem same_fresh : Same (fresh : Cam K) asNew := ⟨rfl, rfl, rfl, rfl, rfl, rfl⟩

theorem disc_of_same {c : Cam K} {t : Told K} (hs : Same c t) : c.refocus.disc = discDue t := by
  simp only [Cam.refocus, discDue, Cam.diopters, hs.focal, hs.radius, hs.px, hs.py, hs.focus]
  cases t.focus <;> simp

/-! ## Discs -/

/-- the calls that recompute the disc, or throw it away -/
def Focusing : Call K → Prop
  | .focus _ | .diopters _ => True
  | _ => False

def Discarding : Call K → Prop
  | .aperture _ => True
  | o => Focusing o

theorem disc_kept {c c' : Cam K} (o : Call K) (ho : ¬ Discarding o) (h : c.step o = some c') : c'.disc = c.disc := by
  cases o with
  | focal f =>
    simp only [Cam.step] at h
    split_ifs at h
    obtain rfl := Option.some.inj h
    exact (remake_fields _).2.2.2.2.2.2.1
  | fstop n => obtain rfl := Option.some.inj h; exact (remake_fields _).2.2.2.2.2.2.1
  | aperture d => exact absurd trivial ho
  | pitch px py => simp only [Cam.step] at h; split_ifs at h; obtain rfl := Option.some.inj h; rfl
  | intrinsics fx fy a => simp only [Cam.step] at h; split_ifs at h; obtain rfl := Option.some.inj h; rfl
  | focus d => exact absurd trivial ho
  | diopters q => exact absurd trivial ho
  | userPsf k => obtain rfl := Option.some.inj h; rfl
  | aperturePsf r b => obtain rfl := Option.some.inj h; rfl
  | apertureOff => obtain rfl := Option.some.inj h; rfl
  | deletePsf => obtain rfl := Option.some.inj h; rfl

theorem disc_kept_run (h : List (Call K)) : ∀ (c c' : Cam K), (∀ o ∈ h, ¬ Discarding o) → c.run h = some c' →
    c'.disc = c.disc := by
  induction h with
  | nil => intro c c' _ hr; obtain rfl := Option.some.inj hr; rfl
  | cons o os ih =>
    intro c c' ho hr
    simp only [Cam.run, Option.bind_eq_some_iff] at hr
    obtain ⟨c1, h1, h2⟩ := hr
    rw [ih c1 c' (fun o' h' => ho o' (List.mem_cons_of_mem _ h')) h2, disc_kept o (ho o List.mem_cons_self) h1]

/-- **C156, which disc.** After any history, the disc is the one due at the last focusing call, for the settings as they
were at that moment, unless the aperture was replaced since (then there is none: `C156_new_aperture`). -/
theorem C156_disc_stale (a b : List (Call K)) (o : Call K) (ho : Focusing o) (hb : ∀ x ∈ b, ¬ Discarding x) (c : Cam K)
    (h : fresh.run (a ++ o :: b) = some c) : c.disc = discDue (told (a ++ [o])) := by
  rw [run_append, Option.bind_eq_some_iff] at h
  obtain ⟨c1, h1, h2⟩ := h
  simp only [Cam.run, Option.bind_eq_some_iff] at h2
  obtain ⟨c2, h3, h4⟩ := h2
  have s1 := same_run a _ _ _ same_fresh h1
  rw [disc_kept_run b _ _ hb h4, told_append]
  have s2 := same_step o s1 h3
  simp only [List.foldl_cons, List.foldl_nil, told] at *
  cases o with
  | focus d => have e := setFocus_some h3; rw [e] at s2 ⊢; exact disc_of_same (c := { c1 with focus := d }) ⟨s2.1, s2.2, s2.3, s2.4, s2.5, s2.6⟩
  | diopters q =>
    have e := setFocus_some h3
    rw [e] at s2 ⊢
    exact disc_of_same (c := { c1 with focus := if |q| < 1e-12 then none else some (1 / q) })
      ⟨s2.1, s2.2, s2.3, s2.4, s2.5, s2.6⟩
  | _ => exact absurd ho id

/-- the calls that have no part in the disc -/
def NoDisc : Call K → Prop
  | .userPsf _ | .aperturePsf _ _ | .apertureOff | .deletePsf => True
  | _ => False

/-- **C156, discs, the proved part.** When the focus is set after the focal length, aperture and sensor, the disc is the one
due, whatever was done before and whatever is done to the point-spread function after. -/
theorem C156_disc_partial (a b : List (Call K)) (o : Call K) (ho : Focusing o) (hb : ∀ x ∈ b, NoDisc x) (c : Cam K)
    (h : fresh.run (a ++ o :: b) = some c) : c.disc = discDue (told (a ++ o :: b)) := by
  rw [C156_disc_stale a b o ho (fun x hx hd => by have := hb x hx; cases x <;> first | exact this | exact hd) c h]
  have : a ++ o :: b = (a ++ [o]) ++ b := by simp
  rw [this, told_append (a ++ [o]) b]
  generalize told (a ++ [o]) = t
  clear h this ho
  induction b generalizing t with
  | nil => rfl
  | cons x xs ih =>
    rw [List.foldl_cons, ← ih (fun y hy => hb y (List.mem_cons_of_mem _ hy))]
    have hx := hb x List.mem_cons_self
    cases x <;> first | exact absurd hx id | rfl

/-- **C156, a new aperture forgets the focus.** -/
theorem C156_new_aperture (a b : List (Call K)) (d : ℝ) (hb : ∀ x ∈ b, ¬ Discarding x) (c : Cam K)
    (h : fresh.run (a ++ .aperture d :: b) = some c) : c.disc = 0 := by
  rw [run_append, Option.bind_eq_some_iff] at h
  obtain ⟨c1, _, h2⟩ := h
  simp only [Cam.run, Cam.step, Option.bind_some] at h2
  rw [disc_kept_run b _ _ hb h2]

/-! ## Point-spread functions -/

/-- what `psf_` and `use_aperture_psf_` say about the wish -/
def Wish (c : Cam K) : Want K → Prop
  | .nothing => c.psf = none ∧ c.useAp = false
  | .own k => c.psf = some (.user k) ∧ c.useAp = false
  | .ofAperture r b => (∃ n x y, c.psf = some (.airy n x y r b)) ∧ c.useAp = true

/-- **C156, no dereference of nothing.** Whenever a call consults the radius and banks of the present function, there is one
that the aperture made. -/
theorem C156_never_null (h : List (Call K)) (c : Cam K) (hr : fresh.run h = some c) (hu : c.useAp = true) :
    ∃ n x y r b, c.psf = some (.airy n x y r b) := by
  have key : ∀ (h : List (Call K)) (c c' : Cam K), (c.useAp = true → ∃ n x y r b, c.psf = some (.airy n x y r b)) →
      c.run h = some c' → (c'.useAp = true → ∃ n x y r b, c'.psf = some (.airy n x y r b)) := by
    intro h
    induction h with
    | nil => intro c c' hi hr; obtain rfl := Option.some.inj hr; exact hi
    | cons o os ih =>
      intro c c' hi hr
      simp only [Cam.run, Option.bind_eq_some_iff] at hr
      obtain ⟨c1, h1, h2⟩ := hr
      refine ih c1 c' ?_ h2
      have rem : ∀ e : Cam K, (e.useAp = true → ∃ n x y r b, e.psf = some (.airy n x y r b)) →
          (e.remake.useAp = true → ∃ n x y r b, e.remake.psf = some (.airy n x y r b)) := by
        intro e he hu
        rw [(remake_fields e).2.2.2.2.2.2.2] at hu
        obtain ⟨n, x, y, r, b, hp⟩ := he hu
        exact ⟨_, _, _, r, b, by simp only [Cam.remake, hu, if_true, hp]; rfl⟩
      cases o with
      | focal f => simp only [Cam.step] at h1; split_ifs at h1; obtain rfl := Option.some.inj h1; exact rem _ hi
      | fstop n => obtain rfl := Option.some.inj h1; exact rem _ hi
      | aperture d => obtain rfl := Option.some.inj h1; exact hi
      | pitch px py => simp only [Cam.step] at h1; split_ifs at h1; obtain rfl := Option.some.inj h1; exact hi
      | intrinsics fx fy a => simp only [Cam.step] at h1; split_ifs at h1; obtain rfl := Option.some.inj h1; exact hi
      | focus d => obtain rfl := setFocus_some h1; exact hi
      | diopters q => obtain rfl := setFocus_some h1; exact hi
      | userPsf k => obtain rfl := Option.some.inj h1; intro hu; cases hu
      | aperturePsf r b => obtain rfl := Option.some.inj h1; intro _; exact ⟨_, _, _, r, b, rfl⟩
      | apertureOff => obtain rfl := Option.some.inj h1; intro hu; cases hu
      | deletePsf => obtain rfl := Option.some.inj h1; intro hu; cases hu
  exact key h fresh c (fun hu => by cases hu) hr hu

theorem remake_wish {c : Cam K} {w : Want K} (h : Wish c w) : Wish c.remake w := by
  cases w with
  | nothing => obtain ⟨h1, h2⟩ := h; simp [Cam.remake, h2, Wish, h1]
  | own k => obtain ⟨h1, h2⟩ := h; simp [Cam.remake, h2, Wish, h1]
  | ofAperture r b =>
    obtain ⟨⟨n, x, y, h1⟩, h2⟩ := h
    simp only [Cam.remake, h2, if_true, h1, Wish]
    exact ⟨⟨_, _, _, rfl⟩, trivial⟩

theorem wish_step {c c' : Cam K} {t : Told K} (o : Call K) (hoff : o ≠ .apertureOff) (hw : Wish c t.want)
    (h : c.step o = some c') : Wish c' (t.hear o).want := by
  have plain : ∀ e : Cam K, e.psf = c.psf → e.useAp = c.useAp → Wish e t.want := by
    intro e h1 h2
    revert hw
    cases t.want <;> simp only [Wish, h1, h2] <;> exact id
  cases o with
  | focal f =>
    simp only [Cam.step] at h
    split_ifs at h
    obtain rfl := Option.some.inj h
    exact remake_wish (plain _ rfl rfl)
  | fstop n => obtain rfl := Option.some.inj h; exact remake_wish (plain _ rfl rfl)
  | aperture d => obtain rfl := Option.some.inj h; exact plain _ rfl rfl
  | pitch px py => simp only [Cam.step] at h; split_ifs at h; obtain rfl := Option.some.inj h; exact plain _ rfl rfl
  | intrinsics fx fy a => simp only [Cam.step] at h; split_ifs at h; obtain rfl := Option.some.inj h; exact plain _ rfl rfl
  | focus d => obtain rfl := setFocus_some h; exact plain _ rfl rfl
  | diopters q => obtain rfl := setFocus_some h; exact plain _ rfl rfl
  | userPsf k => obtain rfl := Option.some.inj h; exact ⟨rfl, rfl⟩
  | aperturePsf r b => obtain rfl := Option.some.inj h; exact ⟨⟨_, _, _, rfl⟩, rfl⟩
  | apertureOff => exact absurd rfl hoff
  | deletePsf => obtain rfl := Option.some.inj h; exact ⟨rfl, rfl⟩

theorem wish_run (h : List (Call K)) : ∀ (c c' : Cam K) (t : Told K), Call.apertureOff ∉ h → Wish c t.want →
    c.run h = some c' → Wish c' (h.foldl Told.hear t).want := by
  induction h with
  | nil => intro c c' t _ hw hr; obtain rfl := Option.some.inj hr; exact hw
  | cons o os ih =>
    intro c c' t hoff hw hr
    simp only [Cam.run, Option.bind_eq_some_iff] at hr
    obtain ⟨c1, h1, h2⟩ := hr
    exact ih c1 c' _ (fun hm => hoff (List.mem_cons_of_mem _ hm))
      (wish_step o (fun e => hoff (e ▸ List.mem_cons_self)) hw h1) h2

/-- the calls after which the aperture's function has just been made -/
def Making : Call K → Prop
  | .focal _ | .fstop _ | .aperturePsf _ _ => True
  | _ => False

/-- the calls that say nothing about the function and make none -/
def Silent : Call K → Prop
  | .aperture _ | .pitch _ _ | .intrinsics _ _ _ | .focus _ | .diopters _ => True
  | _ => False

theorem psf_silent {c c' : Cam K} (o : Call K) (ho : Silent o) (h : c.step o = some c') : c'.psf = c.psf := by
  cases o with
  | aperture d => obtain rfl := Option.some.inj h; rfl
  | pitch px py => simp only [Cam.step] at h; split_ifs at h; obtain rfl := Option.some.inj h; rfl
  | intrinsics fx fy a => simp only [Cam.step] at h; split_ifs at h; obtain rfl := Option.some.inj h; rfl
  | focus d => obtain rfl := setFocus_some h; rfl
  | diopters q => obtain rfl := setFocus_some h; rfl
  | _ => exact absurd ho id

theorem psf_silent_run (h : List (Call K)) : ∀ (c c' : Cam K), (∀ o ∈ h, Silent o) → c.run h = some c' →
    c'.psf = c.psf := by
  induction h with
  | nil => intro c c' _ hr; obtain rfl := Option.some.inj hr; rfl
  | cons o os ih =>
    intro c c' ho hr
    simp only [Cam.run, Option.bind_eq_some_iff] at hr
    obtain ⟨c1, h1, h2⟩ := hr
    rw [ih c1 c' (fun o' h' => ho o' (List.mem_cons_of_mem _ h')) h2, psf_silent o (ho o List.mem_cons_self) h1]

theorem remake_psf {c : Cam K} {t : Told K} (hs : Same c t) (hw : Wish c t.want) : c.remake.psf = psfDue t := by
  unfold psfDue
  cases ht : t.want with
  | nothing => rw [ht] at hw; obtain ⟨h1, h2⟩ := hw; simp [Cam.remake, h2, h1]
  | own k => rw [ht] at hw; obtain ⟨h1, h2⟩ := hw; simp [Cam.remake, h2, h1]
  | ofAperture r b =>
    rw [ht] at hw
    obtain ⟨⟨n, x, y, h1⟩, h2⟩ := hw
    simp [Cam.remake, h2, h1, Cam.make, hs.focal, hs.diam, hs.px, hs.py]

/-- **C156, which point-spread function.** After any history without `use_aperture_psf(false)`, the function in use is the one
due at the last call that set the focal length, the f-stop or the aperture's function, for the settings of that moment,
however the aperture, sensor, intrinsic matrix and focus were changed since. -/
theorem C156_psf_stale (a b : List (Call K)) (o : Call K) (ho : Making o) (ha : Call.apertureOff ∉ a)
    (hb : ∀ x ∈ b, Silent x) (c : Cam K) (h : fresh.run (a ++ o :: b) = some c) : c.psf = psfDue (told (a ++ [o])) := by
  rw [run_append, Option.bind_eq_some_iff] at h
  obtain ⟨c1, h1, h2⟩ := h
  simp only [Cam.run, Option.bind_eq_some_iff] at h2
  obtain ⟨c2, h3, h4⟩ := h2
  have s1 := same_run a _ _ _ same_fresh h1
  have w1 := wish_run a fresh c1 asNew ha ⟨rfl, rfl⟩ h1
  rw [psf_silent_run b _ _ hb h4, told_append]
  simp only [List.foldl_cons, List.foldl_nil]
  change Same c1 (told a) at s1
  change Wish c1 (told a).want at w1
  cases o with
  | focal f =>
    simp only [Cam.step] at h3
    split_ifs at h3
    obtain rfl := Option.some.inj h3
    refine remake_psf ⟨rfl, s1.diam, s1.radius, s1.px, s1.py, s1.focus⟩ ?_
    show Wish _ (told a).want
    revert w1; cases (told a).want <;> exact id
  | fstop n =>
    simp only [Cam.step, diam_of_fstop] at h3
    obtain rfl := Option.some.inj h3
    refine remake_psf ⟨s1.focal, ?_, ?_, s1.px, s1.py, s1.focus⟩ ?_
    · simp [Told.hear, s1.focal]
    · simp [Told.hear, s1.focal]
    · show Wish _ (told a).want
      revert w1; cases (told a).want <;> exact id
  | aperturePsf r b' =>
    obtain rfl := Option.some.inj h3
    simp [psfDue, Told.hear, Cam.make, s1.focal, s1.diam, s1.px, s1.py]
  | _ => exact absurd ho id

/-- the calls with no part in the point-spread function -/
def NoPsf : Call K → Prop
  | .focus _ | .diopters _ => True
  | _ => False

/-- **C156, point-spread functions, the proved part.** When the focal length, the f-stop or the aperture's function is set
after the aperture and the sensor, the function in use is the one due, whatever was done before. -/
theorem C156_psf_partial (a b : List (Call K)) (o : Call K) (ho : Making o) (ha : Call.apertureOff ∉ a)
    (hb : ∀ x ∈ b, NoPsf x) (c : Cam K) (h : fresh.run (a ++ o :: b) = some c) : c.psf = psfDue (told (a ++ o :: b)) := by
  rw [C156_psf_stale a b o ho ha (fun x hx => by have := hb x hx; cases x <;> first | exact this | exact absurd this id) c h]
  have : a ++ o :: b = (a ++ [o]) ++ b := by simp
  rw [this, told_append (a ++ [o]) b]
  generalize told (a ++ [o]) = t
  clear h this ho
  induction b generalizing t with
  | nil => rfl
  | cons x xs ih =>
    rw [List.foldl_cons, ← ih (fun y hy => hb y (List.mem_cons_of_mem _ hy))]
    have hx := hb x List.mem_cons_self
    cases x <;> first | exact absurd hx id | rfl

/-- **C156, the user's own function** stays as it is through all changes of lens, aperture, sensor and focus. -/
theorem C156_own_partial (h : List (Call K)) (k : K) (c : Cam K) (hoff : Call.apertureOff ∉ h) (hr : fresh.run h = some c)
    (hk : (told h).want = .own k ∨ (told h).want = .nothing) : c.psf = psfDue (told h) := by
  have w := wish_run h fresh c asNew hoff ⟨rfl, rfl⟩ hr
  change Wish c (told h).want at w
  unfold psfDue
  rcases hk with hk | hk <;> rw [hk] at w ⊢ <;> exact w.1

/-- **C156, the order that works.** Set up lens, aperture and sensor in any way, then the f-stop, focal length or aperture's
function, then the focus: the whole blur is the one due. -/
theorem C156_partial (a : List (Call K)) (o f : Call K) (ho : Making o) (hf : Focusing f) (ha : Call.apertureOff ∉ a)
    (c : Cam K) (h : fresh.run (a ++ [o, f]) = some c) :
    c.disc = discDue (told (a ++ [o, f])) ∧ c.psf = psfDue (told (a ++ [o, f])) := by
  constructor
  · have e : a ++ [o, f] = (a ++ [o]) ++ f :: [] := by simp
    rw [e] at h ⊢
    exact C156_disc_partial (a ++ [o]) [] f hf (by simp) c h
  · refine C156_psf_partial a [f] o ho ha ?_ c h
    intro x hx
    rw [List.mem_singleton] at hx
    subst hx
    cases x <;> exact hf

/-! ## Where it fails -/

/-- **C156 is violated** by stopping down after focusing: the disc stays as wide as it was. -/
theorem C156_violated_fstop : ∃ (h : List (Call K)) (c : Cam K), fresh.run h = some c ∧ c.disc = 5 ∧ discDue (told h) = 0 := by
  refine ⟨[.focal 1, .fstop 10, .pitch (1 / 100) (1 / 100), .focus (some 1), .fstop 1000],
    ⟨1, 1 / 1000, 1 / 1000 / 2, 1 / 100, 1 / 100, some 1, none, false, 5⟩, ?_, rfl, ?_⟩
  · simp only [Cam.run, Cam.step, Cam.setFocus, diam_of_fstop, Cam.remake, fresh, Cam.refocus, Cam.diopters]
    norm_num [abs_of_pos]
  · norm_num [discDue, told, Told.hear, asNew, abs_of_pos]

/-- **C156 is violated** by changing the sensor after asking for the aperture's function: it is still that of the old pixels. -/
theorem C156_violated_sensor : ∃ (h : List (Call K)) (c : Cam K), fresh.run h = some c ∧
    c.psf = some (.airy 10 1 1 8 4) ∧ psfDue (told h) = some (.airy 10 2 2 8 4) := by
  refine ⟨[.focal 1, .fstop 10, .pitch 1 1, .aperturePsf 8 4, .pitch 2 2],
    ⟨1, 1 / 10, 1 / 10 / 2, 2, 2, none, some (.airy 10 1 1 8 4), true, 0⟩, ?_, rfl, ?_⟩
  · simp only [Cam.run, Cam.step, diam_of_fstop, Cam.remake, fresh, Cam.make]
    norm_num [abs_of_pos]
  · norm_num [psfDue, told, Told.hear, asNew, abs_of_pos]

/-- **C156 is violated** by `use_aperture_psf(false)`, which removes also a function of the user's own. -/
theorem C156_violated_off (k : K) : ∃ (h : List (Call K)) (c : Cam K), fresh.run h = some c ∧ c.psf = none ∧
    psfDue (told h) = some (.user k) :=
  ⟨[.userPsf k, .apertureOff], _, rfl, rfl, rfl⟩

theorem C156_violated : ¬ C156_full K := by
  intro hf
  obtain ⟨h, c, h1, h2, h3⟩ := C156_violated_fstop (K := K)
  have := (hf h c h1).1
  rw [h2, h3] at this
  norm_num at this

/-- a history that meets `C156_partial`, with a disc of five pixels -/
example : ∃ c : Cam K, fresh.run ([.aperture 3, .aperturePsf 8 4, .pitch (1 / 100) (1 / 100), .focal 1] ++ [.fstop 10, .focus (some 1)]) =
    some c ∧ c.disc = 5 ∧ c.psf = some (.airy 10 (1 / 100) (1 / 100) 8 4) := by
  refine ⟨⟨1, 1 / 10, 1 / 10 / 2, 1 / 100, 1 / 100, some 1, some (.airy 10 (1 / 100) (1 / 100) 8 4), true, 5⟩, ?_, rfl, rfl⟩
  simp only [List.cons_append, List.nil_append, Cam.run, Cam.step, Cam.setFocus, diam_of_fstop, Cam.remake, fresh, Cam.make,
    Cam.refocus, Cam.diopters]
  norm_num [abs_of_pos]

/-! ## Which calls are refused -/

/-- The calls a camera refuses: focal lengths and pixels that are not positive, focus closer than `10^-12` to the lens; for
`set_intrinsics` the pixels follow from the focal lengths. -/
def Refused : Call K → Prop
  | .focal f => f ≤ 0
  | .pitch px py => px ≤ 0 ∨ py ≤ 0
  | .intrinsics fx fy a => a / fx ≤ 0 ∨ a / fy ≤ 0
  | .focus (some d) => |d| < 1e-12
  | .diopters q => 1e-12 ≤ |q| ∧ |1 / q| < 1e-12
  | _ => False

/-- **C156, refusals.** A history throws exactly if one of its calls is one of these, whatever the camera is then. -/
theorem C156_refused (h : List (Call K)) : fresh.run h = none ↔ ∃ o ∈ h, Refused o := by
  have step : ∀ (c : Cam K) (o : Call K), c.step o = none ↔ Refused o := by
    intro c o
    cases o with
    | focal f => simp [Cam.step, Refused]
    | pitch px py => simp only [Cam.step, Refused]; split <;> simp_all
    | intrinsics fx fy a => simp only [Cam.step, Refused]; split <;> simp_all
    | focus d =>
      cases d with
      | none => simp [Cam.step, Refused, Cam.setFocus]
      | some d => simp [Cam.step, Refused, Cam.setFocus]
    | diopters q =>
      by_cases hq : |q| < 1e-12
      · simp only [Cam.step, Refused, Cam.setFocus, if_pos hq]
        simp [not_le.2 hq]
      · simp only [Cam.step, Refused, Cam.setFocus, if_neg hq]
        have := not_lt.1 hq
        simp only [this, true_and]
        simp
    | _ => simp [Cam.step, Refused]
  have run : ∀ (c : Cam K), c.run h = none ↔ ∃ o ∈ h, Refused o := by
    induction h with
    | nil => intro c; simp [Cam.run]
    | cons o os ih =>
      intro c
      rw [List.exists_mem_cons_iff, ← step c o]
      simp only [Cam.run]
      cases hs : c.step o with
      | none => simp
      | some c' => simpa using ih c'
  exact run fresh

/-- exactly at the limits: no pixel of no width, and focus at `10^-12` -/
example : fresh.run ([.pitch 0 1] : List (Call K)) = none ∧ fresh.run ([.focus (some 1e-12)] : List (Call K)) ≠ none := by
  rw [C156_refused, Ne, C156_refused]
  refine ⟨⟨_, List.mem_cons_self, Or.inl le_rfl⟩, ?_⟩
  rintro ⟨o, ho, hr⟩
  rw [List.mem_singleton] at ho
  subst ho
  simp only [Refused] at hr
  rw [abs_of_pos (by norm_num)] at hr
  exact lt_irrefl _ hr

end

end Huira.Blur
