import Mathlib.Analysis.SpecialFunctions.Trigonometric.Deriv
import Verif.Core.NodeProps

set_option linter.unusedSimpArgs false

/-!
# C84: reported velocities are the rates of change of reported positions and orientations
-/

namespace Huira.World

open V3 Rot Xform Transform

variable {S : Type}

/-! ## Specification -/

/-- The vector-valued function `f` has derivative `d` at `t`. -/
def Rate (f : ℝ → V3) (d : V3) (t : ℝ) : Prop :=
  HasDerivAt (fun s => (f s).x) d.x t ∧ HasDerivAt (fun s => (f s).y) d.y t ∧ HasDerivAt (fun s => (f s).z) d.z t

/-- The velocity and angular velocity of `W t` are those with which the transforms `W` move at time `t`: the origin moves
with the velocity, and every direction fixed in the frame turns with the angular velocity. -/
def Moves (W : ℝ → Transform) (t : ℝ) : Prop :=
  Rate (fun s => (W s).position) (W t).velocity t ∧
  ∀ d, Rate (fun s => (W s).rotation.mulVec d) (cross (W t).angularVelocity ((W t).rotation.mulVec d)) t

/-- At time `t` the node has turned by more than 1e-12 rad since the epoch, or does not turn at all. -/
def Turning (n : Node S) (epoch t : ℝ) : Prop :=
  n.loc.angularVelocity = zero ∨ 1e-12 < |len n.loc.angularVelocity * (t - epoch)|

/-- **C84 in full**: for hand-set nodes the reported velocity and angular velocity (relative to the parent) are the rates of
change of the reported position and orientation. -/
def C84_full : Prop :=
  ∀ (S : Type) (sp : Spice S) (n : Node S) (P : Transform) (epoch : ℝ), Manual n → Valid n.loc →
    ∃ L : ℝ → Transform, (∀ t, localTransform sp n P epoch t 0 = some (L t)) ∧ ∀ t, Turning n epoch t → Moves L t

/-! ## Lemmas -/

theorem Rate.add {f g : ℝ → V3} {a b : V3} {t : ℝ} (hf : Rate f a t) (hg : Rate g b t) : Rate (fun s => f s + g s) (a + b) t :=
  ⟨hf.1.add hg.1, hf.2.1.add hg.2.1, hf.2.2.add hg.2.2⟩

theorem Rate.const (a : V3) (t : ℝ) : Rate (fun _ => a) zero t :=
  ⟨hasDerivAt_const _ _, hasDerivAt_const _ _, hasDerivAt_const _ _⟩

theorem Rate.smul {f : ℝ → V3} {k : ℝ → ℝ} {a : V3} {k' t : ℝ} (hk : HasDerivAt k k' t) (hf : Rate f a t) :
    Rate (fun s => k s * f s) (k' * f t + k t * a) t :=
  ⟨hk.mul hf.1, hk.mul hf.2.1, hk.mul hf.2.2⟩

theorem Rate.congr {f g : ℝ → V3} {a b : V3} {t : ℝ} (hf : Rate f a t) (h : ∀ᶠ s in nhds t, g s = f s) (hab : b = a) :
    Rate g b t := by
  subst hab
  exact ⟨hf.1.congr_of_eventuallyEq (h.mono fun s e => by simp only [e]),
    hf.2.1.congr_of_eventuallyEq (h.mono fun s e => by simp only [e]),
    hf.2.2.congr_of_eventuallyEq (h.mono fun s e => by simp only [e])⟩

theorem Rate.congr' {f g : ℝ → V3} {a b : V3} {t : ℝ} (hf : Rate f a t) (h : ∀ s, g s = f s) (hab : b = a) :
    Rate g b t := hf.congr (Filter.Eventually.of_forall h) hab

theorem Rate.unique {f : ℝ → V3} {a b : V3} {t : ℝ} (ha : Rate f a t) (hb : Rate f b t) : a = b :=
  V3.ext (ha.1.unique hb.1) (ha.2.1.unique hb.2.1) (ha.2.2.unique hb.2.2)

/-- Product rule for a turning frame and a moving vector. -/
theorem Rate.mulVec {R : ℝ → M3} {u : ℝ → V3} {w u' : V3} {t : ℝ}
    (hR : ∀ d, Rate (fun s => (R s).mulVec d) (cross w ((R t).mulVec d)) t) (hu : Rate u u' t) :
    Rate (fun s => (R s).mulVec (u s)) (cross w ((R t).mulVec (u t)) + (R t).mulVec u') t := by
  have h0 := hR ⟨1, 0, 0⟩
  have h1 := hR ⟨0, 1, 0⟩
  have h2 := hR ⟨0, 0, 1⟩
  have k := ((Rate.smul hu.1 h0).add (Rate.smul hu.2.1 h1)).add (Rate.smul hu.2.2 h2)
  refine k.congr' (fun s => ?_) ?_
  · ext <;> simp
  · ext <;> simp [cross] <;> ring

theorem Rate.had {u : ℝ → V3} {u' : V3} {t : ℝ} (k : V3) (hu : Rate u u' t) : Rate (fun s => Xform.had k (u s)) (Xform.had k u') t :=
  ⟨hu.1.const_mul _, hu.2.1.const_mul _, hu.2.2.const_mul _⟩

/-- Composition of moving frames. -/
theorem moves_compose {A B C : ℝ → Transform} {t : ℝ} {k : V3} (hA : Moves A t) (hB : Moves B t)
    (hAr : ∀ s, IsRotation (A s).rotation) (hBr : ∀ s, IsRotation (B s).rotation) (hk : ∀ s, (A s).scale = k)
    (hC : ∀ s, (A s).compose (B s) = some (C s)) : Moves C t := by
  have hc : ∀ s, (C s).rotation = (A s).rotation.mul (B s).rotation ∧
      (C s).position = (A s).position + (A s).rotation.mulVec (Xform.had k (B s).position) ∧
      (C s).velocity = (A s).velocity + (A s).rotation.mulVec (Xform.had k (B s).velocity) +
        cross (A s).angularVelocity ((A s).rotation.mulVec (Xform.had k (B s).position)) ∧
      (C s).angularVelocity = (A s).angularVelocity + (A s).rotation.mulVec (B s).angularVelocity := by
    intro s
    obtain ⟨c, h, h1, h2, _, h4, h5⟩ := compose_some (hAr s) (hBr s)
    rw [hC s] at h
    obtain rfl := Option.some.inj h
    rw [hk s] at h2 h4
    exact ⟨h1, h2, h4, h5⟩
  refine ⟨?_, fun d => ?_⟩
  · refine (hA.1.add (Rate.mulVec hA.2 (Rate.had k hB.1))).congr' (fun s => (hc s).2.1) ?_
    rw [(hc t).2.2.1]
    ext <;> simp <;> ring
  · refine (Rate.mulVec hA.2 (hB.2 d)).congr' (fun s => by rw [(hc s).1, mul_mulVec]) ?_
    rw [(hc t).1, (hc t).2.2.2, mul_mulVec, (hAr t).2]
    ext <;> simp [cross] <;> ring

/-- Turning about a fixed axis. -/
theorem rate_turn (a : V3) (ha : dot a a = 1) (k e : ℝ) (v : V3) (t : ℝ) :
    Rate (fun s => turn a (k * (s - e)) v) (cross (k * a) (turn a (k * (t - e)) v)) t := by
  have hl : HasDerivAt (fun s => k * (s - e)) k t := by
    simpa using ((hasDerivAt_id t).sub_const e).const_mul k
  have hcos := (Real.hasDerivAt_cos (k * (t - e))).comp t hl
  have hsin := (Real.hasDerivAt_sin (k * (t - e))).comp t hl
  have h := ((Rate.smul hcos (Rate.const v t)).add (Rate.smul hsin (Rate.const (cross a v) t))).add
    (Rate.smul ((hcos.const_sub 1).mul_const (dot a v)) (Rate.const a t))
  refine h.congr' (fun s => rfl) ?_
  unfold turn
  unfold dot at ha
  ext <;> simp [cross, zero, dot] <;> grind

theorem turn_smul_axis (n : V3) (h : n ≠ zero) : len n * normalize n = n := by
  have := len_pos h
  unfold V3.normalize
  ext <;> simp [V3.smul] <;> field_simp

theorem ev_turn (w : V3) {epoch t : ℝ} (h : 1e-12 < |len w * (t - epoch)|) :
    ∀ᶠ s in nhds t, ¬ |len w * (s - epoch)| < 1e-12 := by
  have hc : Continuous (fun s => |len w * (s - epoch)|) := by fun_prop
  exact (hc.continuousAt.eventually_const_lt h).mono fun s hs => not_lt.mpr hs.le

/-- The local orientation of a node moves with angular velocity `ω` (parent axes). -/
theorem rate_rotation (n : Node S) (hv : Valid n.loc) (epoch t : ℝ) (ht : Turning n epoch t) (R : ℝ → M3)
    (hR : ∀ s, localRotation n (s - epoch) = some (R s, n.loc.angularVelocity)) (d : V3) :
    Rate (fun s => (R s).mulVec d)
      (cross (if n.bodyRates then n.loc.rotation.mulVec n.loc.angularVelocity else n.loc.angularVelocity) ((R t).mulVec d)) t := by
  have hact : ∀ s, (R s).mulVec d =
        if |len n.loc.angularVelocity * (s - epoch)| < 1e-12 then n.loc.rotation.mulVec d
        else if n.bodyRates then n.loc.rotation.mulVec (turn (normalize n.loc.angularVelocity) (len n.loc.angularVelocity * (s - epoch)) d)
        else turn (normalize n.loc.angularVelocity) (len n.loc.angularVelocity * (s - epoch)) (n.loc.rotation.mulVec d) := by
    intro s
    obtain ⟨r, h1, _, h2⟩ := localRotation_spec n hv.rot (s - epoch)
    rw [hR s] at h1
    have := (Prod.mk.inj (Option.some.inj h1)).1
    rw [this, h2]
  by_cases hw : n.loc.angularVelocity = zero
  · have hl : len (zero : V3) = 0 := by simp [len, dot, zero]
    refine (Rate.const (n.loc.rotation.mulVec d) t).congr' (fun s => ?_) ?_
    · rw [hact s, if_pos]; rw [hw, hl]; norm_num
    · rw [hw]
      have : n.loc.rotation.mulVec zero = zero := by ext <;> simp [zero]
      rw [this, ite_self]
      ext <;> simp [cross, zero]
  · have ht' := ht.resolve_left hw
    have hev := ev_turn n.loc.angularVelocity ht'
    have ha := dot_normalize hw
    have hax := turn_smul_axis _ hw
    cases hb : n.bodyRates
    · refine (rate_turn (normalize n.loc.angularVelocity) ha (len n.loc.angularVelocity) epoch (n.loc.rotation.mulVec d) t).congr
        (hev.mono fun s hs => by rw [hact s, if_neg hs, hb]; rfl) ?_
      rw [hact t, if_neg (not_lt.mpr ht'.le : ¬ |len n.loc.angularVelocity * (t - epoch)| < 1e-12), hb, hax]; rfl
    · have hz : ∀ d', Rate (fun _ : ℝ => n.loc.rotation.mulVec d') (cross zero (n.loc.rotation.mulVec d')) t := fun d' => by
        refine (Rate.const (n.loc.rotation.mulVec d') t).congr' (fun _ => rfl) ?_
        ext <;> simp [cross, zero]
      have h := Rate.mulVec (R := fun _ => n.loc.rotation) (w := zero) hz
        (rate_turn (normalize n.loc.angularVelocity) ha (len n.loc.angularVelocity) epoch d t)
      refine h.congr (hev.mono fun s hs => by rw [hact s, if_neg hs, hb]; rfl) ?_
      rw [hact t, if_neg (not_lt.mpr ht'.le : ¬ |len n.loc.angularVelocity * (t - epoch)| < 1e-12), hb, hax]
      simp only [if_true, hv.rot.2]
      ext <;> simp [cross, zero]

/-- The local transforms of a hand-set node, as a function of time. -/
theorem local_path (sp : Spice S) (n : Node S) (hm : Manual n) (hv : Valid n.loc) (epoch dt : ℝ) :
    ∃ R : ℝ → M3, (∀ s, localRotation n (s - dt - epoch) = some (R s, n.loc.angularVelocity) ∧ IsRotation (R s)) ∧
      ∀ (P : Transform) s, localTransform sp n P epoch s dt = some
        ⟨n.loc.position + (s - dt - epoch) * n.loc.velocity, R s, n.loc.scale, n.loc.velocity, n.loc.angularVelocity⟩ := by
  have h : ∀ s, ∃ r, localRotation n (s - dt - epoch) = some (r, n.loc.angularVelocity) ∧ IsRotation r := by
    intro s
    obtain ⟨r, h1, h2, _⟩ := localRotation_spec n hv.rot (s - dt - epoch)
    exact ⟨r, h1, h2⟩
  choose R hR using h
  refine ⟨R, hR, fun P s => ?_⟩
  unfold localTransform
  simp only [hm.1, hm.2, (hR s).1, localPosition, Option.bind_eq_bind, Option.bind_some]
  simp

theorem rate_position (n : Node S) (e t : ℝ) :
    Rate (fun s => n.loc.position + (s - e) * n.loc.velocity) n.loc.velocity t := by
  have h : HasDerivAt (fun s : ℝ => s - e) 1 t := by simpa using (hasDerivAt_id t).sub_const e
  refine ((Rate.const n.loc.position t).add (Rate.smul h (Rate.const n.loc.velocity t))).congr' (fun s => rfl) ?_
  ext <;> simp [zero]

theorem moves_local (n : Node S) (hv : Valid n.loc) (hb : n.bodyRates = false ∨ n.loc.rotation.mulVec n.loc.angularVelocity = n.loc.angularVelocity)
    (epoch t : ℝ) (ht : Turning n epoch t) (R : ℝ → M3)
    (hR : ∀ s, localRotation n (s - epoch) = some (R s, n.loc.angularVelocity)) :
    Moves (fun s => ⟨n.loc.position + (s - epoch) * n.loc.velocity, R s, n.loc.scale, n.loc.velocity, n.loc.angularVelocity⟩) t := by
  refine ⟨rate_position n epoch t, fun d => ?_⟩
  refine (rate_rotation n hv epoch t ht R hR d).congr' (fun _ => rfl) ?_
  rcases hb with hb | hb
  · rw [hb]; simp
  · rw [hb, ite_self]

/-! ## Theorems -/

/-- **C84, world velocities.** Take hand-set nodes, stacked to any depth on a frame whose reported velocity and angular
velocity are true rates (and whose scale is constant); let each node's rates be given in its parent's axes. Then the world
velocity and angular velocity huira reports for the node are the rates of change of its world position and orientation. -/
theorem C84_world_partial (sp : Spice S) (epoch t : ℝ) (base : List (Node S)) (T : ℝ → Transform) (k : V3)
    (hT : ∀ s, world sp epoch s 0 base = some (T s)) (hTr : ∀ s, IsRotation (T s).rotation) (hTk : ∀ s, (T s).scale = k)
    (hTm : Moves T t) (l : List (Node S))
    (hl : ∀ n ∈ l, Manual n ∧ Valid n.loc ∧ n.bodyRates = false ∧ Turning n epoch t) :
    ∃ W : ℝ → Transform, (∀ s, world sp epoch s 0 (l ++ base) = some (W s)) ∧ Moves W t := by
  suffices h : ∃ (W : ℝ → Transform) (k : V3), (∀ s, world sp epoch s 0 (l ++ base) = some (W s)) ∧
      (∀ s, IsRotation (W s).rotation) ∧ (∀ s, (W s).scale = k) ∧ Moves W t by
    obtain ⟨W, _, h1, _, _, h2⟩ := h
    exact ⟨W, h1, h2⟩
  induction l with
  | nil => exact ⟨T, k, hT, hTr, hTk, hTm⟩
  | cons n r ih =>
    obtain ⟨P, kP, hP, hPr, hPk, hPm⟩ := ih (fun n hn => hl n (List.mem_cons_of_mem _ hn))
    obtain ⟨hm, hv, hb, ht⟩ := hl n (List.mem_cons_self ..)
    obtain ⟨R, hR, hL⟩ := local_path sp n hm hv epoch 0
    simp only [sub_zero] at hR hL
    have hmv := moves_local n hv (Or.inl hb) epoch t ht R (fun s => (hR s).1)
    have hc : ∀ s, ∃ c, (P s).compose ⟨n.loc.position + (s - epoch) * n.loc.velocity, R s, n.loc.scale, n.loc.velocity,
        n.loc.angularVelocity⟩ = some c ∧ IsRotation c.rotation ∧ c.scale = Xform.had kP n.loc.scale := by
      intro s
      obtain ⟨c, h, h1, _, h3, _⟩ := compose_some (a := P s) (b := ⟨n.loc.position + (s - epoch) * n.loc.velocity, R s,
        n.loc.scale, n.loc.velocity, n.loc.angularVelocity⟩) (hPr s) (hR s).2
      refine ⟨c, h, ?_, ?_⟩
      · rw [h1]; exact ((hPr s).ortho.mul (hR s).2.ortho).isRotation
      · rw [h3, hPk]
    choose W hW using hc
    refine ⟨W, _, fun s => ?_, fun s => (hW s).2.1, fun s => (hW s).2.2, moves_compose hPm hmv hPr (fun s => (hR s).2) hPk (fun s => (hW s).1)⟩
    match hb' : r ++ base, hP s with
    | q :: rest, hP' =>
      have e : n :: r ++ base = n :: q :: rest := by rw [List.cons_append, hb']
      rw [e]
      show ssb sp epoch s 0 n (q :: rest) = some (W s)
      rw [ssb_manual _ _ _ _ _ _ _ hm]
      have hP'' : ssb sp epoch s 0 q rest = some (P s) := hP'
      simp only [hP'', hL, (hW s).1, Option.bind_eq_bind, Option.bind_some]

/-- **C84, rates given in body axes.** They are reported unrotated: the reported angular velocity of a turning node is the
rate at which it turns exactly if the initial orientation leaves the rate vector in place. -/
theorem C84_body_iff (sp : Spice S) (n : Node S) (P : Transform) (epoch t : ℝ) (hm : Manual n) (hv : Valid n.loc)
    (hb : n.bodyRates = true) (ht : 1e-12 < |len n.loc.angularVelocity * (t - epoch)|) :
    ∃ L : ℝ → Transform, (∀ s, localTransform sp n P epoch s 0 = some (L s)) ∧
      (Moves L t ↔ n.loc.rotation.mulVec n.loc.angularVelocity = n.loc.angularVelocity) := by
  obtain ⟨R, hR, hL⟩ := local_path sp n hm hv epoch 0
  simp only [sub_zero] at hR hL
  refine ⟨_, fun s => hL P s, ?_, ?_⟩
  · intro hmv
    have key : ∀ d, cross n.loc.angularVelocity ((R t).mulVec d) = cross (n.loc.rotation.mulVec n.loc.angularVelocity) ((R t).mulVec d) := by
      intro d
      have h1 := hmv.2 d
      have h2 := rate_rotation n hv epoch t (Or.inr ht) R (fun s => (hR s).1) d
      rw [hb, if_pos rfl] at h2
      exact Rate.unique h1 h2
    have key' : ∀ v, cross n.loc.angularVelocity v = cross (n.loc.rotation.mulVec n.loc.angularVelocity) v := by
      intro v
      have := key ((R t).transpose.mulVec v)
      rwa [(hR t).2.ortho.expand] at this
    have kx := key' ⟨1, 0, 0⟩
    have ky := key' ⟨0, 1, 0⟩
    simp only [cross, V3.ext_iff] at kx ky
    ext <;> linarith [kx.2.1, kx.2.2, ky.1, ky.2.2]
  · intro h
    exact moves_local n hv (Or.inr h) epoch t (Or.inr ht) R (fun s => (hR s).1)

/-- **C84, violated**: a node tilted by a quarter turn about x, spinning about its own z axis at 1 rad/s, is reported to spin
about the parent's z axis. -/
theorem C84_violated : ¬ C84_full := by
  intro h
  let loc : Transform := { Transform.default with rotation := ⟨⟨1, 0, 0⟩, ⟨0, 0, 1⟩, ⟨0, -1, 0⟩⟩, angularVelocity := ⟨0, 0, 1⟩ }
  let n : Node Unit := { plain Unit .manual .manual loc with bodyRates := true }
  have hv : Valid loc := by
    refine ⟨Ortho.isRotation ⟨?_, ?_, ?_, ?_⟩, ?_, ?_, ?_⟩ <;> simp [loc, dot, cross, Transform.default]
  obtain ⟨L, hL, hmv⟩ := h Unit ⟨fun _ _ => (zero, zero), fun _ _ => (M3.one, zero)⟩ n Transform.default 0 ⟨rfl, rfl⟩ hv
  have hlen : len n.loc.angularVelocity = 1 := by simp [n, loc, plain, len, dot]
  have ht : 1e-12 < |len n.loc.angularVelocity * (1 - 0)| := by rw [hlen]; norm_num
  obtain ⟨L', hL', hiff⟩ := C84_body_iff ⟨fun _ _ => (zero, zero), fun _ _ => (M3.one, zero)⟩ n Transform.default 0 1 ⟨rfl, rfl⟩ hv rfl ht
  have e : L = L' := by
    funext s
    have := hL s
    rw [hL' s] at this
    exact (Option.some.inj this).symm
  subst e
  have := hiff.mp (hmv 1 (Or.inr ht))
  have hz := congrArg V3.z this
  simp [n, loc, plain] at hz

/-- The hypotheses of `C84_world_partial` are met by a spinning node moving in a fixed SPICE frame. -/
example : ∃ W : ℝ → Transform, (∀ s, world (S := Unit) ⟨fun _ _ => (zero, zero), fun _ _ => (M3.one, zero)⟩ 0 s 0
    ([plain Unit .manual .manual { Transform.default with velocity := ⟨2, 0, 0⟩, angularVelocity := ⟨0, 0, 1⟩ }] ++
     [plain Unit .spice .spice Transform.default]) = some (W s)) ∧ Moves W 3 := by
  refine C84_world_partial _ 0 3 _ (fun _ => Transform.default) ⟨1, 1, 1⟩ (fun s => ?_) (fun _ => ortho_one.isRotation) (fun _ => rfl) ?_ _ ?_
  · show ssb _ _ _ _ _ _ = _
    rw [ssb]
    simp [plain, Transform.default, zero]
  · refine ⟨(Rate.const _ _).congr' (fun _ => rfl) rfl, fun d => (Rate.const _ _).congr' (fun _ => rfl) ?_⟩
    ext <;> simp [cross, Transform.default, zero]
  · intro n hn
    obtain rfl := List.mem_singleton.mp hn
    refine ⟨⟨rfl, rfl⟩, ⟨valid_default.1, valid_default.2, valid_default.3, valid_default.4⟩, rfl, Or.inr ?_⟩
    have : len (⟨0, 0, 1⟩ : V3) = 1 := by simp [len, dot]
    show (1e-12 : ℝ) < |len (⟨0, 0, 1⟩ : V3) * (3 - 0)|
    rw [this]; norm_num

end Huira.World
