import Verif.Camera.State
import Verif.Camera.GeometryProps
import Mathlib.Tactic.NormNum
set_option linter.unusedSimpArgs false
/-!
# C39, C40, C41, C43 (range of alpha), C44 (focus)
-/
namespace Huira.Camera
noncomputable section
open Classical

variable {D : Type}

/-! ### C39: rejected settings -/

/-- **C39, full statement**: a setter that throws leaves the camera as it was. -/
def C39_full (D : Type) : Prop := ∀ (s : State D) (op : Op D), (step s op).threw = true → (step s op).st = s

/-- Setters that validate before they assign. -/
def Atomic : Op D → Prop
  | .focalLength _ | .configPitch .. | .configSize .. | .intrinsics .. | .intrinsicMatrix .. => False
  | _ => True

/-- **C39 (partial).** `set_sensor`, `set_veiling_glare`, `set_focus_distance`, `set_diopters` (and the setters that never
throw) leave the camera unchanged when they throw. -/
theorem C39_atomic_partial (s : State D) (op : Op D) (ha : Atomic op) (ht : (step s op).threw = true) :
    (step s op).st = s := by
  cases op <;> simp only [Atomic] at ha <;> simp only [step] at ht ⊢
  case distortion => simp [setDistortion, ret] at ht
  case deleteDistortion => simp [deleteDistortion, ret] at ht
  case blender => simp [useBlender, ret] at ht
  case disableVeilingGlare => simp [disableVeilingGlare, ret] at ht
  case sensor x y px py =>
    unfold setSensor at ht ⊢
    split
    · rfl
    · rename_i h; rw [if_neg h] at ht; simp [ret] at ht
  case veilingGlare a =>
    unfold setVeilingGlare at ht ⊢
    split
    · rfl
    · rename_i h; rw [if_neg h] at ht; simp [ret] at ht
  case focus d =>
    unfold setFocus at ht ⊢
    split
    · rfl
    · rename_i h; rw [if_neg h] at ht
      split
      · rfl
      · rename_i h; rw [if_neg h] at ht; simp [ret] at ht
  case diopters d =>
    unfold setDiopters setFocus at ht ⊢
    generalize (if (absX d).lt (XF.fin 1e-12) then XF.pinf else XF.div (XF.fin 1) d) = e at ht ⊢
    split
    · rfl
    · rename_i h; rw [if_neg h] at ht
      split
      · rfl
      · rename_i h; rw [if_neg h] at ht; simp [ret] at ht

/-- A rejected `set_focal_length` still replaces the focal length and forgets explicit intrinsics; projection, rays and
frustum are untouched until the next recomputation. -/
theorem C39_focal_length_partial (s : State D) (f : XF) (ht : (step s (.focalLength f)).threw = true) :
    (step s (.focalLength f)).st = { s with focal := f, isExplicit := false } := by
  simp only [step, setFocalLength] at ht ⊢
  split
  · rfl
  · rename_i h; rw [if_neg h] at ht; simp [ret] at ht

/-- **C39 is violated** by `set_focal_length(-1 m)` on a new camera: it throws and the focal length reads -1 m. -/
theorem C39_violated : ¬ C39_full D := by
  intro h
  have ht : (step (initial : State D) (.focalLength (.fin (-1)))).threw = true := by
    simp only [step, setFocalLength]
    rw [if_pos (Or.inl (by norm_num [XF.le]))]
    rfl
  have h1 := h initial (.focalLength (.fin (-1))) ht
  rw [C39_focal_length_partial initial _ ht] at h1
  have h2 := congrArg State.focal h1
  simp [initial, computeIntrinsics, computeFrustum] at h2
  norm_num at h2

/-- **C39 is violated** by `set_intrinsics`: with fx = -1 it throws, yet projections use the new fx, fy, cx, cy. -/
theorem C39_intrinsics_violated (s : State D) (fy cx cy : XF) (x y : Int) (hx : 0 ≤ x) (hy : 0 ≤ y) :
    (step s (.intrinsics (.fin (-1)) fy cx cy x y (.fin 1))).threw = true ∧
    (step s (.intrinsics (.fin (-1)) fy cx cy x y (.fin 1))).st.o.fx = .fin (-1) ∧
    (step s (.intrinsics (.fin (-1)) fy cx cy x y (.fin 1))).st.o.cx = cx := by
  have hr : ¬ (x < 0 ∨ y < 0) := by omega
  have hp : (XF.div (.fin 1) (.fin (-1))).le (.fin 0) := by
    rw [XF.div_fin _ _ (by norm_num)]; norm_num [XF.le]
  simp only [step, setIntrinsics, setResolution, if_neg hr, Res.bind, ret, Bool.false_eq_true, if_false, setPitch,
    if_pos (Or.inl hp : (XF.div (.fin 1) (.fin (-1))).le (.fin 0) ∨ _), fail, if_true, and_self]

/-- **C39 is violated** by `configure_sensor_from_pitch`: with a NaN principal point it throws after having installed the
new resolution and pitch. -/
theorem C39_configure_violated (s : State D) (x y : Int) (hx : 0 ≤ x) (hy : 0 ≤ y) :
    (step s (.configPitch x y (.fin 1e-6) none (some .nan) none)).threw = true ∧
    (step s (.configPitch x y (.fin 1e-6) none (some .nan) none)).st.o.resX = x ∧
    (step s (.configPitch x y (.fin 1e-6) none (some .nan) none)).st.pitchX = .fin 1e-6 := by
  have hr : ¬ (x < 0 ∨ y < 0) := by omega
  have hp : ¬ ((XF.fin 1e-6).le (.fin 0) ∨ (XF.fin 1e-6).isInf ∨ (XF.fin 1e-6).isNan ∨ (XF.fin 1e-6).le (.fin 0) ∨
      (XF.fin 1e-6).isInf ∨ (XF.fin 1e-6).isNan) := by
    norm_num [XF.le, XF.isInf, XF.isNan]
  simp only [step, configPitch, setResolution, if_neg hr, Res.bind, ret, Bool.false_eq_true, if_false, setPitch,
    Option.getD_none, if_neg hp, setPrincipal, Option.getD_some]
  rw [if_pos (Or.inl (show XF.nan.isNan from trivial))]
  exact ⟨rfl, rfl, rfl⟩

/-! ### C40: derived data -/

/-- What the user has asked for, written down independently of the camera's members: `kExplicit` are focal lengths in
pixels if given, a missing principal point means the image centre. -/
structure Settings (D : Type) where
  focal : XF
  pitchX : XF
  pitchY : XF
  resX : Int
  resY : Int
  ppx : Option XF
  ppy : Option XF
  kExplicit : Option (XF × XF)
  blender : Bool
  distortion : Option D

/-- The optics these settings mean. -/
def Settings.optics (t : Settings D) : Optics D where
  fx := match t.kExplicit with
    | some k => k.1
    | none => t.focal.div t.pitchX
  fy := match t.kExplicit with
    | some k => k.2
    | none => t.focal.div t.pitchY
  cx := t.ppx.getD (.fin ((t.resX : ℝ) * 0.5))
  cy := t.ppy.getD (.fin ((t.resY : ℝ) * 0.5))
  resX := t.resX
  resY := t.resY
  blender := t.blender
  distortion := t.distortion

/-- The effect each (accepted) call is meant to have. -/
def Settings.apply (t : Settings D) : Op D → Settings D
  | .focalLength f => { t with focal := f, kExplicit := none }
  | .configPitch x y px py cx cy =>
    { t with resX := x, resY := y, pitchX := px, pitchY := py.getD px, ppx := cx, ppy := cy, kExplicit := none }
  | .configSize x y w h cx cy =>
    { t with resX := x, resY := y, pitchX := w.div (.fin x),
             pitchY := match h with
               | some h => h.div (.fin y)
               | none => w.div (.fin x)
             ppx := cx, ppy := cy, kExplicit := none }
  | .intrinsics fx fy cx cy x y a =>
    { t with focal := a, pitchX := a.div fx, pitchY := a.div fy, resX := x, resY := y, ppx := some cx, ppy := some cy,
             kExplicit := some (fx, fy) }
  | .intrinsicMatrix m x y a =>
    { t with focal := a, pitchX := a.div (m 0 0), pitchY := a.div (m 1 1), resX := x, resY := y,
             ppx := some (m 2 0), ppy := some (m 2 1), kExplicit := some (m 0 0, m 1 1) }
  | .distortion d => { t with distortion := some d }
  | .deleteDistortion => { t with distortion := none }
  | .blender b => { t with blender := b }
  | .sensor x y px py => { t with resX := x, resY := y, pitchX := px, pitchY := py }
  | _ => t

def Settings.applyAll (t : Settings D) (ops : List (Op D)) : Settings D := ops.foldl Settings.apply t
/-- Documented defaults: 50 mm, 1024 × 1024, 8.5 µm, centred, no distortion. -/
def defaults : Settings D := ⟨.fin 0.05, .fin 8.5e-6, .fin 8.5e-6, 1024, 1024, none, none, none, false, none⟩

/-- Rays computed afresh from optics `o`. -/
def freshRays (o : Optics D) : RaySource D :=
  match o.distortion with
  | none => .pinhole o
  | some _ => .field (some o)

/-- The camera shows the settings: its optics, ray directions and frustum are those of `t`. -/
def Shows (s : State D) (t : Settings D) : Prop :=
  s.o = t.optics ∧ s.rays = freshRays t.optics ∧ s.frustum = (t.optics, freshRays t.optics)

/-- **C40, full statement**: after every history of accepted calls the camera shows the settings. -/
def C40_full (D : Type) : Prop :=
  ∀ ops : List (Op D), Accepted initial ops → Shows (run initial ops) (defaults.applyAll ops)

/-- Calls the partial theorem covers: no distortion model, no change of convention, no `set_sensor`, no matrix. -/
def Plain : Op D → Prop
  | .distortion _ | .deleteDistortion | .blender _ | .sensor .. | .intrinsicMatrix .. => False
  | _ => True

theorem computeIntrinsics_explicit (s : State D) (h : s.isExplicit = true) :
    computeIntrinsics s = { s with frustum := (s.o, s.rays), solid := s.o } := by
  unfold computeIntrinsics computeFrustum; rw [if_pos h]

/-- Invariant relating the camera to the settings for plain histories. -/
structure Inv (s : State D) (t : Settings D) : Prop where
  focal : s.focal = t.focal
  pitchX : s.pitchX = t.pitchX
  pitchY : s.pitchY = t.pitchY
  expl : s.isExplicit = t.kExplicit.isSome
  o : s.o = t.optics
  dist : t.distortion = none
  fr : s.frustum = (s.o, .pinhole s.o)
  solid : s.solid = s.o

theorem inv_intrinsics (s : State D) (t : Settings D) (hf : s.focal = t.focal) (hx : s.pitchX = t.pitchX)
    (hy : s.pitchY = t.pitchY) (he : s.isExplicit = t.kExplicit.isSome)
    (hcx : s.o.cx = t.optics.cx) (hcy : s.o.cy = t.optics.cy) (hrx : s.o.resX = t.resX) (hry : s.o.resY = t.resY)
    (hb : s.o.blender = t.blender) (hd : s.o.distortion = none) (hd' : t.distortion = none)
    (hk : ∀ k, t.kExplicit = some k → s.o.fx = k.1 ∧ s.o.fy = k.2) : Inv (computeIntrinsics s) t := by
  rcases ho : s.o with ⟨so1, so2, so3, so4, so5, so6, so7, so8⟩
  simp only [ho] at hcx hcy hrx hry hb hd hk
  cases hk' : t.kExplicit with
  | none =>
    have hne : ¬ s.isExplicit = true := by rw [he, hk']; simp
    have key : computeIntrinsics s = { s with
        o := { s.o with fx := s.focal.div s.pitchX, fy := s.focal.div s.pitchY },
        frustum := ({ s.o with fx := s.focal.div s.pitchX, fy := s.focal.div s.pitchY },
          .pinhole { s.o with fx := s.focal.div s.pitchX, fy := s.focal.div s.pitchY }),
        solid := { s.o with fx := s.focal.div s.pitchX, fy := s.focal.div s.pitchY } } := by
      unfold computeIntrinsics computeFrustum State.rays
      simp only [if_neg hne, ho, hd]
    rw [key]
    refine ⟨hf, hx, hy, by rw [he, hk'], ?_, hd', rfl, rfl⟩
    simp only [ho]
    unfold Settings.optics at hcx hcy ⊢
    simp only [hk', hf, hx, hy] at hcx hcy ⊢
    rw [hcx, hcy, hrx, hry, hb, hd, hd']
  | some k =>
    have hex : s.isExplicit = true := by rw [he, hk']; rfl
    rw [computeIntrinsics_explicit s hex]
    have hr : s.rays = .pinhole s.o := by unfold State.rays; simp only [ho, hd]
    refine ⟨hf, hx, hy, by rw [he, hk'], ?_, hd', by rw [hr], rfl⟩
    obtain ⟨k1, k2⟩ := hk k hk'
    simp only [ho]
    unfold Settings.optics at hcx hcy ⊢
    simp only [hk'] at hcx hcy ⊢
    rw [hcx, hcy, hrx, hry, hb, hd, hd', k1, k2]

theorem inv_initial : Inv (initial : State D) defaults := by
  unfold initial
  apply inv_intrinsics <;> simp [defaults, Settings.optics] <;> norm_num

theorem bind_ok (r : Res D) (f : State D → Res D) (h : (r.bind f).threw = false) :
    r.threw = false ∧ (f r.st).threw = false ∧ r.bind f = f r.st := by
  unfold Res.bind at h ⊢
  cases hr : r.threw
  · rw [hr] at h; simp at h; simp [h]
  · rw [hr] at h; simp [hr] at h

theorem setResolution_ok (x y : Int) (s : State D) (h : (setResolution x y s).threw = false) :
    0 ≤ x ∧ 0 ≤ y ∧ (setResolution x y s).st = { s with o := { s.o with resX := x, resY := y } } := by
  unfold setResolution at h ⊢
  split at h
  · simp [fail] at h
  · rename_i hh; rw [if_neg hh]; exact ⟨by omega, by omega, rfl⟩

theorem setPitch_ok (x y : XF) (s : State D) (h : (setPitch x y s).threw = false) :
    x.IsPos ∧ y.IsPos ∧ (setPitch x y s).st = { s with pitchX := x, pitchY := y } := by
  unfold setPitch at h ⊢
  split at h
  · simp [fail] at h
  · rename_i hh
    rw [if_neg hh]
    refine ⟨(XF.isPos_iff x).mpr ?_, (XF.isPos_iff y).mpr ?_, rfl⟩
    · intro c; apply hh; tauto
    · intro c; apply hh; tauto

theorem setSize_ok (w h : XF) (s : State D) (hh : (setSize w h s).threw = false) :
    w.IsPos ∧ h.IsPos ∧
    (setSize w h s).st = { s with pitchX := w.div (.fin s.o.resX), pitchY := h.div (.fin s.o.resY) } := by
  unfold setSize at hh ⊢
  split at hh
  · simp [fail] at hh
  · rename_i hn
    rw [if_neg hn]
    refine ⟨(XF.isPos_iff w).mpr ?_, (XF.isPos_iff h).mpr ?_, (setPitch_ok _ _ s hh).2.2⟩
    · intro c; apply hn; tauto
    · intro c; apply hn; tauto

theorem setPrincipal_ok (cx cy : Option XF) (x y : Int) (s : State D) (h : (setPrincipal cx cy x y s).threw = false) :
    (setPrincipal cx cy x y s).st = computeIntrinsics { s with o := { s.o with
      cx := cx.getD (.fin ((x : ℝ) * 0.5)), cy := cy.getD (.fin ((y : ℝ) * 0.5)) } } := by
  unfold setPrincipal at h ⊢
  simp only at h ⊢
  split at h
  · simp [fail] at h
  · rename_i hh; rw [if_neg hh]; rfl

/-- Scaling a pitch by a pixel count and back. -/
theorem pitch_roundtrip (p : XF) (x : Int) (hp : p.IsPos) (hw : (p.mul (.fin x)).IsPos) :
    (p.mul (.fin x)).div (.fin x) = p := by
  obtain ⟨r, rfl, hr⟩ := hp
  obtain ⟨w, he, hw0⟩ := hw
  rw [XF.fin_mul] at he ⊢
  have hx : (x : ℝ) ≠ 0 := by
    intro h0
    rw [h0, mul_zero] at he
    have := XF.fin.inj he
    linarith
  rw [XF.div_fin _ _ hx, mul_div_assoc, div_self hx, mul_one]

theorem inv_step (s : State D) (t : Settings D) (op : Op D) (h : Inv s t) (hp : Plain op)
    (ha : (step s op).threw = false) : Inv (step s op).st (t.apply op) := by
  have hdist : s.o.distortion = none := by rw [h.o]; exact h.dist
  have hbl : s.o.blender = t.blender := by rw [h.o]; rfl
  have hrx : s.o.resX = t.resX := by rw [h.o]; rfl
  have hry : s.o.resY = t.resY := by rw [h.o]; rfl
  cases op <;> simp only [Plain] at hp <;> simp only [step] at ha ⊢
  case focalLength f =>
    unfold setFocalLength at ha ⊢
    simp only at ha ⊢
    split at ha
    · simp [fail] at ha
    · rename_i hh
      rw [if_neg hh]
      apply inv_intrinsics
      · rfl
      · exact h.pitchX
      · exact h.pitchY
      · rfl
      · exact (congrArg Optics.cx h.o : s.o.cx = t.optics.cx)
      · exact (congrArg Optics.cy h.o : s.o.cy = t.optics.cy)
      · exact hrx
      · exact hry
      · exact hbl
      · exact hdist
      · exact h.dist
      · intro k hk; simp [Settings.apply] at hk
  case configPitch x y px py cx cy =>
    unfold configPitch at ha ⊢
    obtain ⟨h1, h2, e1⟩ := bind_ok _ _ ha
    obtain ⟨h3, h4, e2⟩ := bind_ok _ _ h1
    rw [e1, setPrincipal_ok _ _ _ _ _ h2, e2, (setPitch_ok _ _ _ h4).2.2, (setResolution_ok _ _ _ h3).2.2]
    apply inv_intrinsics
    · exact h.focal
    · rfl
    · rfl
    · rfl
    · rfl
    · rfl
    · rfl
    · rfl
    · exact hbl
    · exact hdist
    · exact h.dist
    · intro k hk; simp [Settings.apply] at hk
  case configSize x y w hh cx cy =>
    unfold configSize at ha ⊢
    obtain ⟨h1, h2, e1⟩ := bind_ok _ _ ha
    obtain ⟨h3, h4, e2⟩ := bind_ok _ _ h1
    rw [e1, setPrincipal_ok _ _ _ _ _ h2, e2]
    cases hh with
    | some hv =>
      simp only at h4 ⊢
      rw [(setSize_ok _ _ _ h4).2.2, (setResolution_ok _ _ _ h3).2.2]
      apply inv_intrinsics
      · exact h.focal
      · rfl
      · rfl
      · rfl
      · rfl
      · rfl
      · rfl
      · rfl
      · exact hbl
      · exact hdist
      · exact h.dist
      · intro k hk; simp [Settings.apply] at hk
    | none =>
      simp only at h4 ⊢
      rw [(setPitch_ok _ _ _ h4).2.2, (setResolution_ok _ _ _ h3).2.2]
      apply inv_intrinsics
      · exact h.focal
      · rfl
      · rfl
      · rfl
      · rfl
      · rfl
      · rfl
      · rfl
      · exact hbl
      · exact hdist
      · exact h.dist
      · intro k hk; simp [Settings.apply] at hk
  case intrinsics fx fy cx cy x y a =>
    unfold setIntrinsics at ha ⊢
    simp only at ha ⊢
    obtain ⟨h1, _, e1⟩ := bind_ok _ _ ha
    obtain ⟨h3, h4, e2⟩ := bind_ok _ _ h1
    obtain ⟨h5, h6, e3⟩ := bind_ok _ _ h3
    rw [e1, e2]
    rw [e3] at h4 ⊢
    have r1 := (setResolution_ok _ _ _ h5).2.2
    have p1 := setPitch_ok _ _ _ h6
    have z1 := setSize_ok _ _ _ h4
    show Inv (computeIntrinsics _) _
    rw [z1.2.2, p1.2.2, r1]
    apply inv_intrinsics
    · rfl
    · exact pitch_roundtrip _ _ p1.1 z1.1
    · exact pitch_roundtrip _ _ p1.2.1 z1.2.1
    · rfl
    · rfl
    · rfl
    · rfl
    · rfl
    · exact hbl
    · exact hdist
    · exact h.dist
    · intro k hk; simp [Settings.apply] at hk; subst hk; exact ⟨rfl, rfl⟩
  case veilingGlare a =>
    unfold setVeilingGlare at ha ⊢
    split at ha
    · simp [fail] at ha
    · rename_i hn; rw [if_neg hn]; exact ⟨h.focal, h.pitchX, h.pitchY, h.expl, h.o, h.dist, h.fr, h.solid⟩
  case disableVeilingGlare => exact ⟨h.focal, h.pitchX, h.pitchY, h.expl, h.o, h.dist, h.fr, h.solid⟩
  case focus d =>
    unfold setFocus at ha ⊢
    split at ha
    · simp [fail] at ha
    · rename_i hn; rw [if_neg hn]
      split at ha
      · simp [fail] at ha
      · rename_i hm; rw [if_neg hm]; exact ⟨h.focal, h.pitchX, h.pitchY, h.expl, h.o, h.dist, h.fr, h.solid⟩
  case diopters d =>
    unfold setDiopters setFocus at ha ⊢
    generalize (if (absX d).lt (XF.fin 1e-12) then XF.pinf else XF.div (XF.fin 1) d) = e at ha ⊢
    split at ha
    · simp [fail] at ha
    · rename_i hn; rw [if_neg hn]
      split at ha
      · simp [fail] at ha
      · rename_i hm; rw [if_neg hm]; exact ⟨h.focal, h.pitchX, h.pitchY, h.expl, h.o, h.dist, h.fr, h.solid⟩

theorem inv_run (ops : List (Op D)) : ∀ (s : State D) (t : Settings D), Inv s t → (∀ op ∈ ops, Plain op) →
    Accepted s ops → Inv (run s ops) (t.applyAll ops) := by
  induction ops with
  | nil => intro s t h _ _; exact h
  | cons op ops ih =>
    intro s t h hp ha
    exact ih _ _ (inv_step s t op h (hp op List.mem_cons_self) ha.1) (fun o ho => hp o (List.mem_cons_of_mem _ ho)) ha.2

/-- **C40 (partial).** After every history of accepted calls to `set_focal_length`, `configure_sensor_from_pitch/size`,
`set_intrinsics`, veiling glare and focus, of any length and in any order, the camera's intrinsics, principal point, ray
directions, frustum and pixel solid angles are those of the settings. Not covered (and false): histories with a
distortion model, a change of axis convention, or `set_sensor`. -/
theorem C40_plain_partial (ops : List (Op D)) (hp : ∀ op ∈ ops, Plain op) (ha : Accepted initial ops) :
    Shows (run initial ops) (defaults.applyAll ops) ∧ (run initial ops).solid = (defaults.applyAll ops).optics := by
  have h := inv_run ops initial defaults inv_initial hp ha
  have hd : (run initial ops).o.distortion = none := by rw [h.o]; exact h.dist
  have hr : (run initial ops).rays = .pinhole (run initial ops).o := by unfold State.rays; rw [hd]
  have hf : freshRays (defaults.applyAll ops).optics = .pinhole (defaults.applyAll ops).optics := by
    unfold freshRays
    have : (Settings.optics (defaults.applyAll ops)).distortion = none := h.dist
    rw [this]
  refine ⟨⟨h.o, ?_, ?_⟩, by rw [h.solid, h.o]⟩
  · rw [hr, hf, h.o]
  · rw [h.fr, hf, h.o]

/-- A three-call plain history that is accepted. -/
example : Accepted (initial : State D) [.focalLength (.fin 0.1), .focus (.fin 10), .veilingGlare (.fin 0.5)] := by
  refine ⟨?_, ?_, ?_, trivial⟩
  · norm_num [step, setFocalLength, XF.le, XF.isInf, XF.isNan, ret]
  · norm_num [step, setFocus, XF.le, XF.lt, XF.isInf, XF.isNan, ret, absX]
  · norm_num [step, setVeilingGlare, XF.le, XF.lt, XF.isInf, XF.isNan, ret, absX]

/-- **C40, remedy.** Whatever happened before, accepted or not, setting the distortion model last brings ray directions and
frustum up to date with the camera's intrinsics. -/
theorem C40_set_distortion_last (s : State D) (d : D) :
    (step s (.distortion d)).st.rays = freshRays (step s (.distortion d)).st.o ∧
    (step s (.distortion d)).st.frustum = ((step s (.distortion d)).st.o, freshRays (step s (.distortion d)).st.o) :=
  ⟨rfl, rfl⟩

/-! Observable consequences of stale data. -/

/-- The direction (not normalised) of the integer pixel (u, v) for optics `o` (camera_model.ipp 618-642); `und` gives the
undistortion map of each model. -/
def dirOf (und : D → XF × XF → XF × XF) (o : Optics D) (u v : XF) : XF × XF × XF :=
  let n := ((u.add o.cx.neg).div o.fx, (v.add o.cy.neg).div o.fy)
  let n := match o.distortion with
    | some d => und d n
    | none => n
  if o.blender then (n.1, n.2.neg, .fin (-1)) else (n.1, n.2, .fin 1)

/-- The direction `cast_ray` returns at an integer pixel; `none` when the direction field was never computed. -/
def rayAt (und : D → XF × XF → XF × XF) (r : RaySource D) (u v : XF) : Option (XF × XF × XF) :=
  match r with
  | .pinhole o => some (dirOf und o u v)
  | .field (some o) => some (dirOf und o u v)
  | .field none => none

/-- With a distortion model set, changing the focal length does not move the rays: the camera keeps looking along the
directions of the old focal length. (Model with identity undistortion, e.g. Brown with zero coefficients.) -/
theorem C40_stale_rays (d : D) :
    let s := run (initial : State D) [.distortion d, .focalLength (.fin 0.1)]
    let t := (defaults : Settings D).applyAll [.distortion d, .focalLength (.fin 0.1)]
    s.o = t.optics ∧ s.rays = .field (some (run (initial : State D) [.distortion d]).o) ∧
    rayAt (fun _ n => n) s.rays (.fin 0) (.fin 0) ≠ rayAt (fun _ n => n) (freshRays t.optics) (.fin 0) (.fin 0) := by
  intro s t
  have hpos : ¬ ((XF.fin 0.1).le (.fin 0) ∨ (XF.fin 0.1).isInf ∨ (XF.fin 0.1).isNan) := by
    norm_num [XF.le, XF.isInf, XF.isNan]
  have hi : (initial : State D).o =
      ⟨XF.div (.fin 0.05) (.fin 8.5e-6), XF.div (.fin 0.05) (.fin 8.5e-6), .fin 512, .fin 512, 1024, 1024, false, none⟩ := rfl
  have hs : s.o = ⟨XF.div (.fin 0.1) (.fin 8.5e-6), XF.div (.fin 0.1) (.fin 8.5e-6), .fin 512, .fin 512, 1024, 1024,
      false, some d⟩ := by
    simp only [s, run, step, setFocalLength, if_neg hpos]
    rfl
  have hr : s.rays = .field (some ⟨XF.div (.fin 0.05) (.fin 8.5e-6), XF.div (.fin 0.05) (.fin 8.5e-6), .fin 512,
      .fin 512, 1024, 1024, false, some d⟩) := by
    simp only [s, run, step, setFocalLength, if_neg hpos]
    rfl
  have ht : t.optics = s.o := by
    rw [hs]
    simp only [t, Settings.applyAll, List.foldl, Settings.apply, defaults, Settings.optics, Option.getD_none]
    norm_num
  refine ⟨ht.symm, by rw [hr]; rfl, ?_⟩
  rw [hr, ht, hs]
  simp only [freshRays, rayAt, dirOf, ne_eq, Option.some.injEq, Prod.mk.injEq, Bool.false_eq_true, if_false]
  rintro ⟨h, _⟩
  rw [XF.div_fin _ _ (by norm_num), XF.div_fin _ _ (by norm_num)] at h
  simp only [XF.neg, XF.add] at h
  rw [XF.div_fin _ _ (by norm_num), XF.div_fin _ _ (by norm_num)] at h
  have := XF.fin.inj h
  norm_num at this

/-- Replacing the sensor leaves the principal point of the old one: a 100 × 100 sensor keeps the centre (512, 512),
outside the image. -/
theorem C40_stale_principal_point :
    let s := run (initial : State D) [.sensor 100 100 (.fin 1e-5) (.fin 1e-5)]
    let t := (defaults : Settings D).applyAll [.sensor 100 100 (.fin 1e-5) (.fin 1e-5)]
    s.o.resX = 100 ∧ s.o.cx = .fin 512 ∧ t.optics.cx = .fin 50 := by
  have hn : ¬ ((100 : Int) < 0 ∨ (100 : Int) < 0 ∨ (XF.fin 1e-5).le (.fin 0) ∨ (XF.fin 1e-5).le (.fin 0)) := by
    norm_num [XF.le]
  refine ⟨?_, ?_, ?_⟩
  · simp only [run, step, setSensor, if_neg hn]; rfl
  · simp only [run, step, setSensor, if_neg hn]; rfl
  · simp only [Settings.applyAll, List.foldl, Settings.apply, defaults, Settings.optics, Option.getD_none]
    norm_num

/-- **C40 is violated**, by every one of: distortion then focal length; `set_sensor`; switching convention; deleting the
distortion. -/
theorem C40_violated (d : D) : ¬ C40_full D := by
  intro h
  have ha : Accepted (initial : State D) [.distortion d, .focalLength (.fin 0.1)] := by
    refine ⟨rfl, ?_, trivial⟩
    norm_num [step, setFocalLength, XF.le, XF.isInf, XF.isNan, ret]
  have h1 := (h _ ha).2.1
  have h2 := (C40_stale_rays d).2.2
  simp only at h2
  rw [h1] at h2
  exact h2 rfl

/-- Switching convention after construction leaves the old frustum: its forward plane still points the other way. -/
theorem C40_blender_frustum_stale :
    (run (initial : State D) [.blender true]).o.blender = true ∧
    (run (initial : State D) [.blender true]).frustum.1.blender = false := ⟨rfl, rfl⟩

/-- What that means: with the frustum computed for the default convention and rays and projection using Blender's, no point
in front of the camera is in the field of view, for any lens. -/
theorem C40_blender_blind (c : Lens) (hc : c.blender = false) (p : V3)
    (hp : 0 < ({ c with blender := true } : Lens).depth p) : ¬ contains c.frustum p := by
  intro h
  have hz := h (some c.zdir) (by simp [Lens.frustum])
  rw [rejects_zdir] at hz
  apply hz
  unfold Lens.depth at hp ⊢
  rw [hc]
  simp at hp ⊢
  exact hp

/-- Deleting the distortion leaves a frustum computed from the distorted rays. -/
theorem C40_delete_frustum_stale (d : D) :
    let s := run (initial : State D) [.distortion d, .deleteDistortion]
    s.o.distortion = none ∧ s.frustum.1.distortion = some d := ⟨rfl, rfl⟩

/-! ### C41: intrinsic matrix -/

/-- GLM's matrix-vector product: `m * v = v.x * m[0] + v.y * m[1] + v.z * m[2]`; row `r` of the result, for real entries. -/
def mulRow (m : Fin 3 → Fin 3 → ℝ) (r : Fin 3) (x y z : ℝ) : ℝ := m 0 r * x + m 1 r * y + m 2 r * z

/-- `m` is the camera matrix with these parameters: it maps a direction to homogeneous pixel coordinates. -/
def IsCameraMatrix (m : Fin 3 → Fin 3 → ℝ) (fx fy cx cy : ℝ) : Prop :=
  ∀ x y z : ℝ, mulRow m 0 x y z = fx * x + cx * z ∧ mulRow m 1 x y z = fy * y + cy * z ∧ mulRow m 2 x y z = z

/-- **C41, full statement**: an accepted `set_intrinsic_matrix` configures the parameters of the matrix. -/
def C41_full (D : Type) : Prop :=
  ∀ (s : State D) (m : Fin 3 → Fin 3 → ℝ) (fx fy cx cy : ℝ) (x y : Int) (a : XF), IsCameraMatrix m fx fy cx cy →
    (step s (.intrinsicMatrix (fun c r => .fin (m c r)) x y a)).threw = false →
    let o := (step s (.intrinsicMatrix (fun c r => .fin (m c r)) x y a)).st.o
    o.fx = .fin fx ∧ o.fy = .fin fy ∧ o.cx = .fin cx ∧ o.cy = .fin cy

/-- `set_intrinsics` does configure its arguments, for every accepted call. -/
theorem C41_set_intrinsics (s : State D) (fx fy cx cy : XF) (x y : Int) (a : XF)
    (ha : (step s (.intrinsics fx fy cx cy x y a)).threw = false) :
    let o := (step s (.intrinsics fx fy cx cy x y a)).st.o
    o.fx = fx ∧ o.fy = fy ∧ o.cx = cx ∧ o.cy = cy ∧ o.resX = x ∧ o.resY = y := by
  simp only [step] at ha ⊢
  unfold setIntrinsics at ha ⊢
  simp only at ha ⊢
  obtain ⟨h1, _, e1⟩ := bind_ok _ _ ha
  obtain ⟨h3, h4, e2⟩ := bind_ok _ _ h1
  obtain ⟨h5, h6, e3⟩ := bind_ok _ _ h3
  rw [e1, e2]
  rw [e3] at h4 ⊢
  rw [(setSize_ok _ _ _ h4).2.2, (setPitch_ok _ _ _ h6).2.2, (setResolution_ok _ _ _ h5).2.2]
  simp only [ret]
  rw [computeIntrinsics_explicit _ rfl]
  simp

theorem cameraMatrix_entries (m : Fin 3 → Fin 3 → ℝ) (fx fy cx cy : ℝ) (h : IsCameraMatrix m fx fy cx cy) :
    m 0 0 = fx ∧ m 1 1 = fy ∧ m 0 2 = 0 ∧ m 1 2 = 0 ∧ m 2 0 = cx ∧ m 2 1 = cy := by
  have h1 := h 1 0 0
  have h2 := h 0 1 0
  have h3 := h 0 0 1
  simp only [mulRow, mul_one, mul_zero, add_zero, zero_add] at h1 h2 h3
  exact ⟨h1.1, h2.2.1, h1.2.2, h2.2.2, h3.1, h3.2.1⟩

/-- **C41 (partial).** An accepted `set_intrinsic_matrix` configures the focal lengths of the matrix, but always puts the
principal point at (0, 0): it reads the transposed entries. -/
theorem C41_matrix_partial (s : State D) (m : Fin 3 → Fin 3 → ℝ) (fx fy cx cy : ℝ) (x y : Int) (a : XF)
    (h : IsCameraMatrix m fx fy cx cy)
    (ha : (step s (.intrinsicMatrix (fun c r => .fin (m c r)) x y a)).threw = false) :
    let o := (step s (.intrinsicMatrix (fun c r => .fin (m c r)) x y a)).st.o
    o.fx = .fin fx ∧ o.fy = .fin fy ∧ o.cx = .fin 0 ∧ o.cy = .fin 0 := by
  obtain ⟨e1, e2, e3, e4, _, _⟩ := cameraMatrix_entries m fx fy cx cy h
  have ha' : (step s (.intrinsics (.fin (m 0 0)) (.fin (m 1 1)) (.fin (m 0 2)) (.fin (m 1 2)) x y a)).threw = false := ha
  have := C41_set_intrinsics s _ _ _ _ x y a ha'
  simp only at this
  refine ⟨this.1.trans (by rw [e1]), this.2.1.trans (by rw [e2]), this.2.2.1.trans (by rw [e3]),
    this.2.2.2.1.trans (by rw [e4])⟩

/-- Matrix of a 640 × 480 camera with f = 500 px and principal point (320, 240). -/
def exK : Fin 3 → Fin 3 → ℝ := fun c r => if c = 0 ∧ r = 0 then 500 else if c = 1 ∧ r = 1 then 500
  else if c = 2 ∧ r = 0 then 320 else if c = 2 ∧ r = 1 then 240 else if c = 2 ∧ r = 2 then 1 else 0
theorem exK_camera : IsCameraMatrix exK 500 500 320 240 := by
  intro x y z; refine ⟨?_, ?_, ?_⟩ <;> simp [mulRow, exK]

theorem exK_accepted (s : State D) :
    (step s (.intrinsicMatrix (fun c r => .fin (exK c r)) 640 480 (.fin 0.05))).threw = false := by
  have k00 : exK 0 0 = 500 := by simp [exK]
  have k11 : exK 1 1 = 500 := by simp [exK]
  have hr : ¬ ((640 : Int) < 0 ∨ (480 : Int) < 0) := by decide
  have hd : XF.div (.fin 0.05) (.fin 500) = .fin (0.05 / 500) := XF.div_fin _ _ (by norm_num)
  have hx : XF.div (.fin (0.05 / 500 * 640)) (.fin 640) = .fin (0.05 / 500 * 640 / 640) := XF.div_fin _ _ (by norm_num)
  have hy : XF.div (.fin (0.05 / 500 * 480)) (.fin 480) = .fin (0.05 / 500 * 480 / 480) := XF.div_fin _ _ (by norm_num)
  simp only [step, setIntrinsicMatrix, setIntrinsics, k00, k11, hd]
  norm_num [setResolution, hr, Res.bind, ret, setPitch, setSize, hd, XF.le, XF.isInf, XF.isNan, XF.mul, hx, hy]

/-- **C41 is violated**: the camera above gets principal point (0, 0). -/
theorem C41_violated : ¬ C41_full D := by
  intro h
  have h1 := h initial exK 500 500 320 240 640 480 (.fin 0.05) exK_camera (exK_accepted _)
  have h2 := C41_matrix_partial (initial : State D) exK 500 500 320 240 640 480 (.fin 0.05) exK_camera (exK_accepted _)
  simp only at h1 h2
  have := h1.2.2.1.symm.trans h2.2.2.1
  have := XF.fin.inj this
  norm_num at this

/-! ### C43: range of the veiling-glare parameter -/

/-- **C43, range.** `set_veiling_glare` accepts exactly the numbers in [0, 1]. -/
theorem C43_alpha_accepted_iff (s : State D) (a : XF) :
    (step s (.veilingGlare a)).threw = false ↔ ∃ r : ℝ, a = .fin r ∧ 0 ≤ r ∧ r ≤ 1 := by
  simp only [step, setVeilingGlare]
  cases a with
  | nan => simp [XF.isNan, fail]
  | pinf => simp [XF.isNan, XF.lt, fail]
  | ninf => simp [XF.isNan, XF.lt, fail]
  | fin r =>
    by_cases h : r < 0 ∨ 1 < r
    · have : (XF.fin r).lt (.fin 0) ∨ XF.lt (.fin 1) (.fin r) ∨ (XF.fin r).isNan := by
        rcases h with h | h
        · exact .inl h
        · exact .inr (.inl h)
      rw [if_pos this]
      simp only [fail, XF.fin.injEq]
      constructor
      · intro hh; simp at hh
      · rintro ⟨q, rfl, h0, h1⟩; rcases h with h | h <;> linarith
    · have : ¬ ((XF.fin r).lt (.fin 0) ∨ XF.lt (.fin 1) (.fin r) ∨ (XF.fin r).isNan) := by
        rintro (h' | h' | h')
        · exact h (.inl h')
        · exact h (.inr h')
        · exact h'
      rw [if_neg this]
      push Not at h
      simp only [ret, true_iff]
      exact ⟨r, rfl, h.1, h.2⟩

/-! ### C44: focus distance and dioptres -/

theorem getDiopters_fin (s : State D) (d : ℝ) (h : s.focus = .fin d) (hd : d ≠ 0) : getDiopters s = .fin (1 / d) := by
  unfold getDiopters
  rw [h, if_neg (show ¬ (XF.fin d).isInf from id), XF.div_fin _ _ hd]
theorem getDiopters_inf (s : State D) (h : s.focus = .pinf) : getDiopters s = .fin 0 := by
  unfold getDiopters
  rw [h, if_pos (show XF.pinf.isInf from trivial)]

/-- **C44, focus.** An accepted `set_focus_distance(d)` with finite d reads back d, and the dioptres read back 1/d. -/
theorem C44_focus_readback (s : State D) (d : ℝ) (ha : (step s (.focus (.fin d))).threw = false) :
    (step s (.focus (.fin d))).st.focus = .fin d ∧ d ≠ 0 ∧ getDiopters (step s (.focus (.fin d))).st = .fin (1 / d) := by
  simp only [step, setFocus] at ha ⊢
  have hn : ¬ (XF.fin d).isNan := id
  rw [if_neg hn] at ha ⊢
  split at ha
  · simp [fail] at ha
  · rename_i hh
    rw [if_neg hh]
    have hd : d ≠ 0 := by
      rintro rfl
      apply hh
      show |(0 : ℝ)| < 1e-12
      norm_num
    exact ⟨rfl, hd, getDiopters_fin _ d rfl hd⟩

/-- **C44, dioptres.** Setting `D` dioptres with 1e-12 ≤ |D| ≤ 1e12 is accepted, focuses at 1/D metres and reads back D; a
smaller |D| focuses at infinity and reads back 0. -/
theorem C44_diopters_readback (s : State D) (q : ℝ) :
    (1e-12 ≤ |q| → |q| ≤ 1e12 → (step s (.diopters (.fin q))).threw = false ∧
      (step s (.diopters (.fin q))).st.focus = .fin (1 / q) ∧ getDiopters (step s (.diopters (.fin q))).st = .fin q) ∧
    (|q| < 1e-12 → (step s (.diopters (.fin q))).threw = false ∧
      (step s (.diopters (.fin q))).st.focus = .pinf ∧ getDiopters (step s (.diopters (.fin q))).st = .fin 0) := by
  constructor
  · intro h1 h2
    have hq : q ≠ 0 := by rintro rfl; norm_num at h1
    have hl : ¬ (absX (.fin q)).lt (.fin 1e-12) := not_lt.mpr h1
    have hq0 : 0 < |q| := abs_pos.mpr hq
    have hl2 : ¬ (absX (.fin (1 / q))).lt (.fin 1e-12) := by
      show ¬ |1 / q| < 1e-12
      rw [abs_div, abs_one, not_lt, le_div_iff₀ hq0]
      have : (1e-12 : ℝ) * |q| ≤ 1e-12 * 1e12 := mul_le_mul_of_nonneg_left h2 (by norm_num)
      have e : (1e-12 : ℝ) * 1e12 = 1 := by norm_num
      linarith
    have hn : ¬ (XF.fin (1 / q)).isNan := id
    have key : step s (.diopters (.fin q)) = ret { s with focus := .fin (1 / q) } := by
      simp only [step, setDiopters, setFocus]
      rw [if_neg hl, XF.div_fin _ _ hq, if_neg hn, if_neg hl2]
    rw [key]
    refine ⟨rfl, rfl, ?_⟩
    rw [getDiopters_fin _ (1 / q) rfl (one_div_ne_zero hq), one_div_one_div]
  · intro h
    have hl : (absX (.fin q)).lt (.fin 1e-12) := h
    have key : step s (.diopters (.fin q)) = ret { s with focus := .pinf } := by
      simp only [step, setDiopters, setFocus]
      rw [if_pos hl, if_neg (show ¬ XF.pinf.isNan from id), if_neg (show ¬ (absX .pinf).lt (.fin 1e-12) from id)]
    rw [key]
    exact ⟨rfl, rfl, getDiopters_inf _ rfl⟩

example : (1e-12 : ℝ) ≤ |2| ∧ |(2 : ℝ)| ≤ 1e12 := by norm_num
example (s : State D) : (step s (.focus (.fin 3))).threw = false := by
  norm_num [step, setFocus, XF.isNan, absX, XF.lt, ret]

end
end Huira.Camera
