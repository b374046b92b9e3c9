import Verif.Core.TransformProps
import Verif.Core.NodeModel

set_option linter.unusedSimpArgs false

/-!
# C10, C83, C85: world transforms of nodes
-/

namespace Huira.World

open V3 Rot Xform Transform

variable {S : Type}

/-! ## Specification -/

/-- A node placed and turned by hand. -/
def Manual (n : Node S) : Prop := n.posMode = .manual ∧ n.rotMode = .manual

/-- Where a hand-placed node puts a point of its own frame in its parent's frame, `s` seconds after the scene's epoch:
scale, turn, and shift, with the position moving at constant velocity and the orientation turning at constant rate about
the rate vector (fixed in the parent frame, or in the body frame if so declared; rates that have turned the node by less
than 1e-12 rad are ignored). -/
noncomputable def place (n : Node S) (s : ℝ) (x : V3) : V3 :=
  let y := had x n.loc.scale
  let w := n.loc.angularVelocity
  let turned :=
    if |len w * s| < 1e-12 then n.loc.rotation.mulVec y
    else if n.bodyRates then n.loc.rotation.mulVec (turn (normalize w) (len w * s) y)
    else turn (normalize w) (len w * s) (n.loc.rotation.mulVec y)
  turned + (n.loc.position + s * n.loc.velocity)

/-- World transform of the first node of a path to the root. -/
noncomputable def world (sp : Spice S) (epoch tObs dt : ℝ) : List (Node S) → Option Transform
  | [] => none
  | n :: ancestors => ssb sp epoch tObs dt n ancestors

/-! ## Lemmas -/

theorem machEps_pos : 0 < machEps := by unfold machEps; positivity

theorem localRotation_spec (n : Node S) (h : IsRotation n.loc.rotation) (s : ℝ) :
    ∃ r, localRotation n s = some (r, n.loc.angularVelocity) ∧ IsRotation r ∧
      ∀ y, r.mulVec y =
        if |len n.loc.angularVelocity * s| < 1e-12 then n.loc.rotation.mulVec y
        else if n.bodyRates then n.loc.rotation.mulVec (turn (normalize n.loc.angularVelocity) (len n.loc.angularVelocity * s) y)
        else turn (normalize n.loc.angularVelocity) (len n.loc.angularVelocity * s) (n.loc.rotation.mulVec y) := by
  unfold localRotation
  simp only []
  set w := n.loc.angularVelocity
  by_cases ha : |len w * s| < 1e-12
  · rw [if_pos ha]
    exact ⟨_, rfl, h, fun y => by rw [if_pos ha]⟩
  · rw [if_neg ha]
    have hw : w ≠ zero := by
      intro e
      apply ha
      rw [e]
      have : len zero = 0 := by simp [len, dot, zero]
      rw [this]; norm_num
    have hl : len (normalize w) = 1 := by
      unfold len; rw [dot_normalize hw, Real.sqrt_one]
    have hle : machEps ≤ len (normalize w) := by rw [hl]; unfold machEps; norm_num
    obtain ⟨m, hm, hmv⟩ := (C63_axis_angle machEps machEps_pos (normalize w) (len w * s)).1 hle
    have hmr : IsRotation m := (C63_rotation machEps machEps_pos (.axisAngle (normalize w) (len w * s)) m hm).1
    rw [normalize_unit (dot_normalize hw)] at hmv
    rw [hm]
    cases hb : n.bodyRates
    · refine ⟨m.mul n.loc.rotation, ?_, (hmr.ortho.mul h.ortho).isRotation, ?_⟩
      · simp only [Option.bind_eq_bind, Option.bind_some, Bool.false_eq_true, if_false, compose_eq hmr.ortho h.ortho]
        rfl
      · intro y; rw [if_neg ha, mul_mulVec, hmv]; simp
    · refine ⟨n.loc.rotation.mul m, ?_, (h.ortho.mul hmr.ortho).isRotation, ?_⟩
      · simp only [Option.bind_eq_bind, Option.bind_some, if_true, compose_eq h.ortho hmr.ortho]
        rfl
      · intro y; rw [if_neg ha, mul_mulVec, hmv]; simp

theorem localTransform_manual (sp : Spice S) (n : Node S) (hm : Manual n) (hv : Valid n.loc) (parent : Transform)
    (epoch tObs dt : ℝ) :
    ∃ l, localTransform sp n parent epoch tObs dt = some l ∧ Valid l ∧ l.scale = n.loc.scale ∧
      ∀ x, l.applyPoint x = place n (tObs - dt - epoch) x := by
  obtain ⟨r, hr, hrot, hact⟩ := localRotation_spec n hv.rot (tObs - dt - epoch)
  refine ⟨⟨n.loc.position + (tObs - dt - epoch) * n.loc.velocity, r, n.loc.scale, n.loc.velocity, n.loc.angularVelocity⟩,
    ?_, ⟨hrot, hv.sx, hv.sy, hv.sz⟩, rfl, ?_⟩
  · unfold localTransform
    simp only [hm.1, hm.2, hr, localPosition, Option.bind_eq_bind, Option.bind_some]
    simp
  · intro x
    unfold applyPoint place
    simp only []
    rw [hact]

theorem uniform_compose {a b c : Transform} (ha : IsRotation a.rotation) (hb : IsRotation b.rotation)
    (hua : Uniform a) (hub : Uniform b) (h : a.compose b = some c) : Uniform c := by
  obtain ⟨c', hc, _, _, hs, _, _⟩ := compose_some ha hb
  rw [h] at hc
  obtain rfl := Option.some.inj hc
  unfold Uniform at *
  rw [hs]
  simp only [had_x, had_y, had_z]
  rw [hua.1, hua.2, hub.1, hub.2]
  exact ⟨rfl, rfl⟩

theorem ssb_manual (sp : Spice S) (epoch tObs dt : ℝ) (n p : Node S) (rest : List (Node S)) (hm : Manual n) :
    ssb sp epoch tObs dt n (p :: rest) = (do
      let parent ← ssb sp epoch tObs dt p rest
      let l ← localTransform sp n parent epoch tObs dt
      parent.compose l) := by
  rw [ssb]
  rw [if_neg (by rw [hm.1]; simp)]

/-- **C10.** Take any hand-placed node and any number of hand-placed frames above it, on top of any frame with a world
transform `T` (for example one placed by SPICE); let the frames above the node be scaled uniformly. Then the node has a
world transform, and it maps every point of the node's frame to what mapping it frame by frame and then with `T` gives, at
every time. -/
theorem C10_world (sp : Spice S) (epoch tObs dt : ℝ) (base : List (Node S)) (T : Transform)
    (hT : world sp epoch tObs dt base = some T) (hTv : Valid T) (hTu : Uniform T)
    (above : List (Node S)) (ha : ∀ n ∈ above, Manual n ∧ Valid n.loc ∧ Uniform n.loc)
    (n : Node S) (hn : Manual n) (hv : Valid n.loc) :
    ∃ W, world sp epoch tObs dt (n :: above ++ base) = some W ∧ Valid W ∧
      ∀ x, W.applyPoint x =
        T.applyPoint ((n :: above).foldl (fun x f => place f (tObs - dt - epoch) x) x) := by
  -- the frames above
  have key : ∀ l : List (Node S), (∀ n ∈ l, Manual n ∧ Valid n.loc ∧ Uniform n.loc) →
      ∃ W, world sp epoch tObs dt (l ++ base) = some W ∧ Valid W ∧ Uniform W ∧
        ∀ x, W.applyPoint x = T.applyPoint (l.foldl (fun x f => place f (tObs - dt - epoch) x) x) := by
    intro l
    induction l with
    | nil => intro _; exact ⟨T, hT, hTv, hTu, fun _ => rfl⟩
    | cons m t ih =>
      intro h
      obtain ⟨P, hP, hPv, hPu, hPm⟩ := ih (fun n hn => h n (List.mem_cons_of_mem _ hn))
      obtain ⟨hm, hmv, hmu⟩ := h m (List.mem_cons_self ..)
      obtain ⟨L, hL, hLv, hLs, hLm⟩ := localTransform_manual sp m hm hmv P epoch tObs dt
      obtain ⟨C, hC, hCv, hCm, _⟩ := C64_compose_partial P L hPv hLv hPu
      have hLu : Uniform L := by unfold Uniform at *; rw [hLs]; exact hmu
      refine ⟨C, ?_, hCv, uniform_compose hPv.rot hLv.rot hPu hLu hC, ?_⟩
      · match hb : t ++ base, hP with
        | q :: rest, hP =>
          have e : m :: t ++ base = m :: q :: rest := by rw [List.cons_append, hb]
          rw [e]
          show ssb sp epoch tObs dt m (q :: rest) = some C
          rw [ssb_manual _ _ _ _ _ _ _ hm]
          have hP' : ssb sp epoch tObs dt q rest = some P := hP
          simp only [hP', hL, hC, Option.bind_eq_bind, Option.bind_some]
      · intro x
        rw [hCm, hLm, hPm]
        rfl
  obtain ⟨P, hP, hPv, hPu, hPm⟩ := key above ha
  obtain ⟨L, hL, hLv, hLs, hLm⟩ := localTransform_manual sp n hn hv P epoch tObs dt
  obtain ⟨C, hC, hCv, hCm, _⟩ := C64_compose_partial P L hPv hLv hPu
  refine ⟨C, ?_, hCv, ?_⟩
  · match hb : above ++ base, hP with
    | q :: rest, hP =>
      have e : n :: above ++ base = n :: q :: rest := by rw [List.cons_append, hb]
      rw [e]
      show ssb sp epoch tObs dt n (q :: rest) = some C
      rw [ssb_manual _ _ _ _ _ _ _ hn]
      have hP' : ssb sp epoch tObs dt q rest = some P := hP
      simp only [hP', hL, hC, Option.bind_eq_bind, Option.bind_some]
  · intro x
    rw [hCm, hLm, hPm]
    rfl

/-- A frame at the default transform (no rotation, unit scale). -/
def plain (S : Type) [Inhabited S] (pos rot : Mode) (t : Transform) : Node S :=
  ⟨pos, rot, t, false, default, default, fun _ _ _ => (zero, zero), fun _ _ _ => (M3.one, zero), fun _ => Transform.default⟩

theorem valid_default : Valid Transform.default := ⟨ortho_one.isRotation, by simp [Transform.default], by simp [Transform.default], by simp [Transform.default]⟩

/-- The hypotheses of `C10_world` are met by a node moving at 2 m/s in a frame at (0, 5, 0) below a SPICE root. -/
example : ∃ W, world (S := Unit) ⟨fun _ _ => (zero, zero), fun _ _ => (M3.one, zero)⟩ 0 3 0
    [plain Unit .manual .manual { Transform.default with velocity := ⟨2, 0, 0⟩ },
     plain Unit .manual .manual { Transform.default with position := ⟨0, 5, 0⟩ },
     plain Unit .spice .spice Transform.default] = some W ∧ W.applyPoint ⟨1, 1, 1⟩ = ⟨7, 6, 1⟩ := by
  have hu : Uniform Transform.default := ⟨rfl, rfl⟩
  have hroot : world (S := Unit) ⟨fun _ _ => (zero, zero), fun _ _ => (M3.one, zero)⟩ 0 3 0 [plain Unit .spice .spice Transform.default]
      = some Transform.default := by
    show ssb _ _ _ _ _ _ = _
    rw [ssb]
    simp [plain, Transform.default, zero]
  obtain ⟨W, h1, _, h2⟩ := C10_world (S := Unit) ⟨fun _ _ => (zero, zero), fun _ _ => (M3.one, zero)⟩ 0 3 0 _ _ hroot valid_default hu
    [plain Unit .manual .manual { Transform.default with position := ⟨0, 5, 0⟩ }]
    (by intro n hn; obtain rfl := List.mem_singleton.mp hn; exact ⟨⟨rfl, rfl⟩, ⟨valid_default.1, valid_default.2, valid_default.3, valid_default.4⟩, hu⟩)
    (plain Unit .manual .manual { Transform.default with velocity := ⟨2, 0, 0⟩ }) ⟨rfl, rfl⟩
    ⟨valid_default.1, valid_default.2, valid_default.3, valid_default.4⟩
  refine ⟨W, h1, ?_⟩
  have hl : len (⟨0, 0, 0⟩ : V3) = 0 := by simp [len, dot]
  rw [h2]
  simp only [List.foldl, place, plain, Transform.default, hl]
  norm_num [applyPoint, M3.one, V3.ext_iff]

/-- C10, roots: a node without ancestors has a world transform only if SPICE gives both position and orientation. -/
theorem C10_root (sp : Spice S) (epoch tObs dt : ℝ) (n : Node S) :
    (world sp epoch tObs dt [n]).isSome ↔ n.posMode = .spice ∧ n.rotMode = .spice := by
  show (ssb sp epoch tObs dt n []).isSome ↔ _
  rw [ssb]
  by_cases h : n.posMode = .spice ∧ n.rotMode = .spice
  · rw [if_pos h]; simp [h]
  · rw [if_neg h]; simp [h]

/-! ## C83: SPICE states -/

/-- **C83 in full**: a node whose position (orientation) comes from SPICE has the world position and velocity (orientation and
angular velocity) that SPICE reports, whatever the other component's source is. -/
def C83_full : Prop :=
  ∀ (S : Type) (sp : Spice S) (epoch tObs dt : ℝ) (n : Node S) (above : List (Node S)) (W P : Transform),
    (∀ f t, IsRotation (sp.sx f t).1) → Valid n.loc → world sp epoch tObs dt above = some P → Valid P → Uniform P →
    world sp epoch tObs dt (n :: above) = some W →
    (n.posMode = .spice → (W.position, W.velocity) = sp.spk n.origin (tObs - dt)) ∧
    (n.rotMode = .spice → (W.rotation, W.angularVelocity) = sp.sx n.frame (tObs - dt))

/-- C83, partial: a node with both from SPICE reports exactly SPICE's state. -/
theorem C83_spice_partial (sp : Spice S) (epoch tObs dt : ℝ) (n : Node S) (above : List (Node S))
    (hp : n.posMode = .spice) (hr : n.rotMode = .spice) :
    ∃ W, world sp epoch tObs dt (n :: above) = some W ∧ (W.position, W.velocity) = sp.spk n.origin (tObs - dt) ∧
      (W.rotation, W.angularVelocity) = sp.sx n.frame (tObs - dt) ∧ W.scale = n.loc.scale := by
  refine ⟨⟨(sp.spk n.origin (tObs - dt)).1, (sp.sx n.frame (tObs - dt)).1, n.loc.scale, (sp.spk n.origin (tObs - dt)).2,
    (sp.sx n.frame (tObs - dt)).2⟩, ?_, rfl, rfl, rfl⟩
  show ssb sp epoch tObs dt n above = some _
  rw [ssb.eq_def]
  simp only [hp, hr, and_self, if_true]

/-- **C83, position from SPICE, orientation set by hand.** The world position is SPICE's; the world velocity is SPICE's plus
the velocity of the parent at that point, i.e. the parent's motion is counted twice. -/
theorem C83_position_partial (sp : Spice S) (epoch tObs dt : ℝ) (n : Node S) (above : List (Node S)) (P : Transform)
    (hP : world sp epoch tObs dt above = some P) (hPv : Valid P) (hPu : Uniform P) (hv : Valid n.loc)
    (hp : n.posMode = .spice) (hr : n.rotMode = .manual) :
    ∃ W, world sp epoch tObs dt (n :: above) = some W ∧ W.position = (sp.spk n.origin (tObs - dt)).1 ∧
      W.velocity = (sp.spk n.origin (tObs - dt)).2 + P.velocityOfPoint (sp.spk n.origin (tObs - dt)).1 := by
  obtain ⟨i, hi, hiv, hiu, _, hright, _, _, _⟩ := C64_inverse_partial P hPv hPu
  obtain ⟨i', hi', hir, his, hip, _, _⟩ := inverse_some hPv.rot
  rw [hi] at hi'
  obtain rfl := Option.some.inj hi'
  obtain ⟨r, hrr, hrot, _⟩ := localRotation_spec n hv.rot (tObs - dt - epoch)
  set pos := (sp.spk n.origin (tObs - dt)).1 with hpos
  set vel := (sp.spk n.origin (tObs - dt)).2 with hvel
  have hl : localTransform sp n P epoch tObs dt = some ⟨i.applyPoint pos, r, n.loc.scale, i.applyDirection vel, n.loc.angularVelocity⟩ := by
    unfold localTransform
    simp only [hp, hr, hrr, hi, Option.bind_eq_bind, Option.bind_some]
    simp [hpos, hvel]
  obtain ⟨c, hc, _, cp, _, cv, _⟩ := compose_some (a := P)
    (b := ⟨i.applyPoint pos, r, n.loc.scale, i.applyDirection vel, n.loc.angularVelocity⟩) hPv.rot hrot
  have hsx := hPv.sx
  have h1 : P.rotation.mulVec (had P.scale (i.applyPoint pos)) = pos - P.position := by
    have := hright pos
    rw [had_comm]
    unfold applyPoint at this ⊢
    rw [V3.ext_iff] at this ⊢
    simp only [add_x, add_y, add_z, sub_x, sub_y, sub_z] at this ⊢
    exact ⟨by linarith [this.1], by linarith [this.2.1], by linarith [this.2.2]⟩
  refine ⟨c, ?_, ?_, ?_⟩
  · match above, hP with
    | q :: rest, hP =>
      show ssb sp epoch tObs dt n (q :: rest) = some c
      rw [ssb, if_neg (by rw [hr]; simp)]
      have hP' : ssb sp epoch tObs dt q rest = some P := hP
      simp only [hP', hl, hc, Option.bind_eq_bind, Option.bind_some]
  · rw [cp]
    simp only [h1]
    ext <;> simp
  · rw [cv]
    have h2 : P.rotation.mulVec (had P.scale (i.applyDirection vel)) = vel := by
      unfold applyDirection
      rw [had_uniform hiu, hir, mulVec_smul, had_comm, had_uniform hPu, mulVec_smul, mulVec_smul, hPv.rot.ortho.expand, his]
      ext <;> simp <;> field_simp
    simp only [h1, h2]
    unfold velocityOfPoint
    ext <;> simp <;> ring

/-- **C83, orientation from SPICE, position set by hand.** The world orientation is SPICE's; the world angular velocity is the
parent's plus SPICE's divided by the parent's scale, instead of SPICE's. -/
theorem C83_rotation_partial (sp : Spice S) (epoch tObs dt : ℝ) (n : Node S) (above : List (Node S)) (P : Transform)
    (hP : world sp epoch tObs dt above = some P) (hPv : Valid P) (hPu : Uniform P)
    (hsx : IsRotation (sp.sx n.frame (tObs - dt)).1)
    (hp : n.posMode = .manual) (hr : n.rotMode = .spice) :
    ∃ W, world sp epoch tObs dt (n :: above) = some W ∧ W.rotation = (sp.sx n.frame (tObs - dt)).1 ∧
      W.angularVelocity = P.angularVelocity + (1 / P.scale.x) * (sp.sx n.frame (tObs - dt)).2 := by
  obtain ⟨i, hi, hiv, hiu, _, _, _, _, _⟩ := C64_inverse_partial P hPv hPu
  obtain ⟨i', hi', hir, his, _, _, _⟩ := inverse_some hPv.rot
  rw [hi] at hi'
  obtain rfl := Option.some.inj hi'
  set rot := (sp.sx n.frame (tObs - dt)).1 with hrot
  set av := (sp.sx n.frame (tObs - dt)).2 with hav
  have hl : localTransform sp n P epoch tObs dt = some ⟨n.loc.position + (tObs - dt - epoch) * n.loc.velocity,
      i.rotation.mul rot, n.loc.scale, n.loc.velocity, i.applyDirection av⟩ := by
    unfold localTransform
    simp only [hp, hr, localPosition, hi, Option.bind_eq_bind, Option.bind_some]
    simp [← hrot, ← hav, compose_eq hiv.rot.ortho hsx.ortho]
  obtain ⟨c, hc, cr, _, _, _, cw⟩ := compose_some (a := P)
    (b := ⟨n.loc.position + (tObs - dt - epoch) * n.loc.velocity, i.rotation.mul rot, n.loc.scale, n.loc.velocity,
      i.applyDirection av⟩) hPv.rot (hiv.rot.ortho.mul hsx.ortho).isRotation
  refine ⟨c, ?_, ?_, ?_⟩
  · match above, hP with
    | q :: rest, hP =>
      show ssb sp epoch tObs dt n (q :: rest) = some c
      rw [ssb, if_neg (by rw [hp]; simp)]
      have hP' : ssb sp epoch tObs dt q rest = some P := hP
      simp only [hP', hl, hc, Option.bind_eq_bind, Option.bind_some]
  · rw [cr]
    apply ext_mulVec
    intro v
    rw [mul_mulVec, mul_mulVec, hir, hPv.rot.ortho.expand]
  · rw [cw]
    congr 1
    unfold applyDirection
    simp only []
    rw [had_uniform hiu, hir, mulVec_smul, mulVec_smul, hPv.rot.ortho.expand, his]

/-- **C83, violated.** A spacecraft with SPICE position and hand-set orientation, in the frame of a body moving at 1 km/s,
gets its velocity plus the body's. -/
theorem C83_violated : ¬ C83_full := by
  intro h
  let sp : Spice Bool := ⟨fun _ _ => (zero, ⟨1000, 0, 0⟩), fun _ _ => (M3.one, zero)⟩
  let n : Node Bool := plain Bool .spice .manual Transform.default
  let b : Node Bool := plain Bool .spice .spice Transform.default
  obtain ⟨P, hP, h1, h2, h3⟩ := C83_spice_partial sp 0 0 0 b [] rfl rfl
  have hPv : Valid P := by
    have : P.rotation = M3.one := (Prod.mk.inj h2).1
    refine ⟨by rw [this]; exact ortho_one.isRotation, ?_, ?_, ?_⟩ <;> rw [h3] <;> simp [b, plain, Transform.default]
  have hPu : Uniform P := by unfold Uniform; rw [h3]; exact ⟨rfl, rfl⟩
  obtain ⟨W, hW, _, hv⟩ := C83_position_partial sp 0 0 0 n [b] P hP hPv hPu valid_default rfl rfl
  have hf := (h Bool sp 0 0 0 n [b] W P (fun _ _ => ortho_one.isRotation) valid_default hP hPv hPu hW).1 rfl
  have e1 : W.velocity = ⟨1000, 0, 0⟩ := (Prod.mk.inj hf).2
  have p1 : P.velocity = ⟨1000, 0, 0⟩ := (Prod.mk.inj h1).2
  have p2 : P.angularVelocity = zero := (Prod.mk.inj h2).2
  rw [e1] at hv
  have hx := congrArg V3.x hv
  simp [sp, velocityOfPoint, p1, p2, cross, zero] at hx

/-! ## C85: getters -/

/-- **C85 in full**: each getter of a static (SPICE) component answers exactly when that component is set by hand (by SPICE). -/
def C85_full : Prop :=
  ∀ (S : Type) (n : Node S),
    ((getStaticPosition n).isSome ↔ n.posMode = .manual) ∧ ((getStaticVelocity n).isSome ↔ n.posMode = .manual) ∧
    ((getStaticRotation n).isSome ↔ n.rotMode = .manual) ∧ ((getStaticAngularVelocity n).isSome ↔ n.rotMode = .manual) ∧
    ((getSpiceOrigin n).isSome ↔ n.posMode = .spice) ∧ ((getSpiceFrame n).isSome ↔ n.rotMode = .spice)

/-- **C85, violated**: the orientation getters look at the position's mode. For a node with SPICE position and hand-set
orientation the orientation cannot be read, and its (empty) SPICE frame can. -/
theorem C85_violated : ¬ C85_full := by
  intro h
  have := (h Unit (plain Unit .spice .manual Transform.default)).2.2.1
  simp [getStaticRotation, plain] at this

/-- C85, partial: position getters answer as they should and with the stored value; orientation getters do when both
components have the same source. -/
theorem C85_partial (n : Node S) :
    ((getStaticPosition n = some n.loc.position ↔ n.posMode = .manual) ∧ (getStaticPosition n = none ↔ n.posMode ≠ .manual)) ∧
    ((getStaticVelocity n = some n.loc.velocity ↔ n.posMode = .manual) ∧ (getStaticVelocity n = none ↔ n.posMode ≠ .manual)) ∧
    ((getSpiceOrigin n = some n.origin ↔ n.posMode = .spice) ∧ (getSpiceOrigin n = none ↔ n.posMode ≠ .spice)) ∧
    getStaticScale n = some n.loc.scale ∧
    (n.posMode = n.rotMode →
      ((getStaticRotation n = some n.loc.rotation ↔ n.rotMode = .manual) ∧ (getStaticRotation n = none ↔ n.rotMode ≠ .manual)) ∧
      ((getStaticAngularVelocity n = some n.loc.angularVelocity ↔ n.rotMode = .manual) ∧
        (getStaticAngularVelocity n = none ↔ n.rotMode ≠ .manual)) ∧
      ((getSpiceFrame n = some n.frame ↔ n.rotMode = .spice) ∧ (getSpiceFrame n = none ↔ n.rotMode ≠ .spice))) := by
  unfold getStaticPosition getStaticVelocity getStaticRotation getStaticAngularVelocity getSpiceOrigin getSpiceFrame getStaticScale
  refine ⟨?_, ?_, ?_, rfl, fun h => ?_⟩
  · by_cases h : n.posMode = .manual <;> simp [h]
  · by_cases h : n.posMode = .manual <;> simp [h]
  · by_cases h : n.posMode = .spice <;> simp [h]
  · rw [← h]
    refine ⟨?_, ?_, ?_⟩
    · by_cases h : n.posMode = .manual <;> simp [h]
    · by_cases h : n.posMode = .manual <;> simp [h]
    · by_cases h : n.posMode = .spice <;> simp [h]

/-- Callbacks: a state callback supplies everything but the scale, at the emission time; a position callback is given the
emission time and the node's rotation state, a rotation callback the emission time and the node's position state. -/
theorem C83_callbacks (sp : Spice S) (n : Node S) (P : Transform) (epoch tObs dt : ℝ) :
    (n.posMode = .transformCallback → n.rotMode = .transformCallback →
      localTransform sp n P epoch tObs dt = some { n.stateCb (tObs - dt) with scale := n.loc.scale }) ∧
    (n.posMode = .positionCallback → n.rotMode = .manual → ∀ L, localTransform sp n P epoch tObs dt = some L →
      (L.position, L.velocity) = n.posCb (tObs - dt) L.rotation L.angularVelocity ∧ L.scale = n.loc.scale ∧
      localRotation n (tObs - dt - epoch) = some (L.rotation, L.angularVelocity)) ∧
    (n.posMode = .manual → n.rotMode = .rotationCallback → ∀ L, localTransform sp n P epoch tObs dt = some L →
      (L.rotation, L.angularVelocity) = n.rotCb (tObs - dt) L.position L.velocity ∧ L.scale = n.loc.scale ∧
      (L.position, L.velocity) = (n.loc.position + (tObs - dt - epoch) * n.loc.velocity, n.loc.velocity)) := by
  refine ⟨?_, ?_, ?_⟩
  · intro h1 h2
    simp [localTransform, h1, h2]
  · intro h1 h2 L hL
    simp only [localTransform, h1, h2, Option.bind_eq_bind, Option.pure_def, Option.bind_some] at hL
    simp at hL
    cases hr : localRotation n (tObs - dt - epoch) with
    | none => rw [hr] at hL; simp at hL
    | some rw' =>
      rw [hr] at hL
      simp at hL
      subst hL
      simp
  · intro h1 h2 L hL
    simp only [localTransform, h1, h2, Option.bind_eq_bind, Option.pure_def, Option.bind_some, localPosition] at hL
    simp at hL
    subst hL
    simp

end Huira.World
