import Verif.Core.RotationFloat

set_option linter.unusedSimpArgs false
/-!
# Where deep frames are, computed with rounding

`get_ssb_transform_` (node.ipp 427-508) walks from the root down and composes transforms with `operator*`
(transform.ipp 139-162); a view composes the inverse of the observer's transform with that of an object
(scene_view.ipp 64). Here every operation is rounded, with a relative error of at most `u`.

Modelled: positions and rotations of frames set by hand, at any depth, in frames of scale one (products with one are exact).
Not modelled: scales, velocities, SPICE and callback frames, overflow and underflow, fused multiply-adds.
-/
namespace Huira.RotFl

open V3 Huira.Rot

/-- A rounding of relative error `u`, nothing lost to overflow or underflow. -/
def IsRelative (u : ℝ) (fl : ℝ → ℝ) : Prop := ∀ x : ℝ, |fl x - x| ≤ u * |x|

theorem IsRelative.rounding {u : ℝ} {fl : ℝ → ℝ} (hu : 0 ≤ u) (h : IsRelative u fl) : IsRounding u fl := by
  intro x _; exact (h x).trans (mul_le_mul_of_nonneg_left (by linarith) hu)

/-! ## The code -/

/-- `a + b` of vectors -/
def flAdd (fl : ℝ → ℝ) (a b : V3) : V3 := ⟨fl (a.x + b.x), fl (a.y + b.y), fl (a.z + b.z)⟩

/-- A frame: how its rotation was made (`set_rotation`), and its position in its parent (`set_position`). -/
structure Frame where
  rot : Calls
  pos : V3

/-- `rotation` of the composed transform (transform.ipp 146-147) of the innermost frame (first in the list). -/
def orient (fl : ℝ → ℝ) : List Frame → Calls
  | [] => .identity
  | f :: up => .compose fl (orient fl up) f.rot

/-- `position` of the composed transform (transform.ipp 143-144): `position + rotation * b.position`; `none` when a rotation
throws. -/
noncomputable def place (fl : ℝ → ℝ) : List Frame → Option V3
  | [] => some zero
  | f :: up => (place fl up).bind fun p => (orient fl up).run.bind fun r => some (flAdd fl p (flMulVec fl r f.pos))

/-- position of an object in a view (`observer.inverse() * object`): `inverse` (transform.ipp 110-132) has the position
`rotation.inverse() * (-position)`; then `operator*` (transform.ipp 139-144) -/
noncomputable def seen (fl : ℝ → ℝ) (observer object : List Frame) : Option V3 :=
  (place fl observer).bind fun po => (place fl object).bind fun p =>
    (Calls.inverse fl (orient fl observer)).run.bind fun r => some (flAdd fl (flMulVec fl r (-po)) (flMulVec fl r p))

/-! ## Where they should be -/

/-- the exact orientation and position -/
noncomputable def orientX : List Frame → M3
  | [] => M3.one
  | f :: up => (orientX up).mul f.rot.exact

noncomputable def placeX : List Frame → V3
  | [] => zero
  | f :: up => placeX up + (orientX up).mulVec f.pos

/-- the distances on the way from the root, added up -/
noncomputable def reach : List Frame → ℝ
  | [] => 0
  | f :: up => reach up + len f.pos

/-- the number of rotation calls: those the frames were made with, and one for every level -/
def calls : List Frame → ℕ
  | [] => 0
  | f :: up => calls up + f.rot.count + 1

/-! ## Error bounds -/

section
variable {u : ℝ} {fl : ℝ → ℝ}

theorem step' (hr : IsRelative u fl) (hu : 0 ≤ u) {x y α M : ℝ} (h : |x - y| ≤ α) (hy : |y| ≤ M) :
    |fl x - y| ≤ α + u * (M + α) := by
  have hx : |x| ≤ M + α := by
    have := abs_add_le y (x - y); rw [add_sub_cancel] at this; linarith
  have h1 := hr x
  have h2 := abs_add_le (fl x - x) (x - y)
  have e : fl x - x + (x - y) = fl x - y := by ring
  rw [e] at h2
  have := mul_le_mul_of_nonneg_left hx hu
  linarith

theorem flAdd_near (hr : IsRelative u fl) (hu : 0 ≤ u) (a b : V3) : len (flAdd fl a b - (a + b)) ≤ u * len (a + b) := by
  apply len_le_of_sq (mul_nonneg hu (len_nn _))
  rw [mul_pow, len_sq']
  have sq : ∀ x : ℝ, (fl x - x) * (fl x - x) ≤ u ^ 2 * (x * x) := by
    intro x
    have h := hr x
    have := mul_self_le_mul_self (abs_nonneg _) h
    rw [abs_mul_abs_self] at this
    calc _ ≤ u * |x| * (u * |x|) := this
      _ = u ^ 2 * (|x| * |x|) := by ring
      _ = _ := by rw [abs_mul_abs_self]
  have h1 := sq (a.x + b.x)
  have h2 := sq (a.y + b.y)
  have h3 := sq (a.z + b.z)
  simp only [dot, flAdd, sub_x, sub_y, sub_z, add_x, add_y, add_z]
  linarith

/-- a rounded sum of three rounded products, relative to the size of the second factors -/
theorem sum3' (hr : IsRelative u fl) (hu : 0 ≤ u) (hu1 : u ≤ 1e-7) {a b c x y z l : ℝ} (ha : |a| ≤ 1.001) (hb : |b| ≤ 1.001)
    (hc : |c| ≤ 1.001) (hx : |x| ≤ l) (hy : |y| ≤ l) (hz : |z| ≤ l) :
    |fl (fl (fl (a * x) + fl (b * y)) + fl (c * z)) - (a * x + b * y + c * z)| ≤ 8.1 * u * l := by
  have hl : 0 ≤ l := (abs_nonneg x).trans hx
  have hul : 0 ≤ u * l := mul_nonneg hu hl
  have huu : u * (u * l) ≤ 1e-7 * (u * l) := mul_le_mul_of_nonneg_right hu1 hul
  have pr : ∀ {s t : ℝ}, |s| ≤ 1.001 → |t| ≤ l → |fl (s * t) - s * t| ≤ 1.001 * (u * l) ∧ |s * t| ≤ 1.001 * l := by
    intro s t hs ht
    have h1 := absmul hs ht
    have h2 := mul_le_mul_of_nonneg_left h1 hu
    exact ⟨(hr _).trans (by linarith), h1⟩
  obtain ⟨p1, q1⟩ := pr ha hx
  obtain ⟨p2, q2⟩ := pr hb hy
  obtain ⟨p3, q3⟩ := pr hc hz
  have s1 := step' hr hu (plus p1 p2) (absadd q1 q2)
  have s1' : |fl (fl (a * x) + fl (b * y)) - (a * x + b * y)| ≤ 4.01 * (u * l) := s1.trans (by linarith)
  have s2 := step' hr hu (plus s1' p3) (absadd (absadd q1 q2) q3)
  exact s2.trans (by linarith)

theorem flMulVec_near' (hr : IsRelative u fl) (hu : 0 ≤ u) (hu1 : u ≤ 1e-7) {m g : M3} (hg : Ortho g)
    (hm : Near (200 * u) m g) (v : V3) : len (flMulVec fl m v - m.mulVec v) ≤ 14.2 * u * len v := by
  obtain ⟨k0, k1, k2⟩ := hm.cols
  have n0 : len m.c0 ≤ 1.001 := (len_le_add k0 (len_unit hg.xx).le).trans (by linarith)
  have n1 : len m.c1 ≤ 1.001 := (len_le_add k1 (len_unit hg.yy).le).trans (by linarith)
  have n2 : len m.c2 ≤ 1.001 := (len_le_add k2 (len_unit hg.zz).le).trans (by linarith)
  obtain ⟨v1, v2, v3⟩ := comp_le v
  have e : ∀ a b c d f g : ℝ, a * b + c * d + f * g = b * a + d * c + g * f := by intros; ring
  have k := len_of_comp (a := flMulVec fl m v - m.mulVec v) (e := 8.1 * u * len v)
    (by
      have := sum3' hr hu hu1 ((comp_le m.c0).1.trans n0) ((comp_le m.c1).1.trans n1) ((comp_le m.c2).1.trans n2) v1 v2 v3
      rw [e] at this; exact this)
    (by
      have := sum3' hr hu hu1 ((comp_le m.c0).2.1.trans n0) ((comp_le m.c1).2.1.trans n1) ((comp_le m.c2).2.1.trans n2) v1 v2 v3
      rw [e] at this; exact this)
    (by
      have := sum3' hr hu hu1 ((comp_le m.c0).2.2.trans n0) ((comp_le m.c1).2.2.trans n1) ((comp_le m.c2).2.2.trans n2) v1 v2 v3
      rw [e] at this; exact this)
  have : 0 ≤ u * len v := mul_nonneg hu (len_nn v)
  linarith

/-- a vector turned by a computed rotation -/
theorem turned_near (hr : IsRelative u fl) (hu : 0 ≤ u) (hu1 : u ≤ 1e-7) {e : Calls} (he : e.Ok u) {m : M3}
    (hm : e.run = some m) (v : V3) : len (flMulVec fl m v - e.exact.mulVec v) ≤ (2700 * e.count + 214.2) * u * len v := by
  obtain ⟨s, g, h1, h2, h3, h4, h5⟩ := e.run_near hu hu1 he
  obtain rfl := Option.some.inj (h1.symm.trans hm)
  have a := flMulVec_near' hr hu hu1 h2 h4 v
  have b := (h4.trans h5) v
  have c := len_tri (flMulVec fl s v) (s.mulVec v) (e.exact.mulVec v)
  linarith

end

/-- All rotations are made with arithmetic of unit `u`. -/
def FramesOk (u : ℝ) (fs : List Frame) : Prop := ∀ f ∈ fs, f.rot.Ok u

theorem orient_ok {u : ℝ} {fl : ℝ → ℝ} (hr : IsRounding u fl) (fs : List Frame) (h : FramesOk u fs) : (orient fl fs).Ok u := by
  induction fs with
  | nil => trivial
  | cons f up ih =>
    exact ⟨hr, ih (fun g hg => h g (List.mem_cons_of_mem _ hg)), h f List.mem_cons_self⟩

theorem orient_exact (fl : ℝ → ℝ) (fs : List Frame) : (orient fl fs).exact = orientX fs ∧ (orient fl fs).count = calls fs := by
  induction fs with
  | nil => exact ⟨rfl, rfl⟩
  | cons f up ih => simp only [orient, Calls.exact, Calls.count, orientX, calls, ih.1, ih.2, and_self]

theorem reach_nonneg (fs : List Frame) : 0 ≤ reach fs := by
  induction fs with
  | nil => exact le_refl _
  | cons f up ih => exact add_nonneg ih (len_nn _)

theorem orientX_ortho {u : ℝ} {fl : ℝ → ℝ} (hu : 0 ≤ u) (hu1 : u ≤ 1e-7) (hr : IsRounding u fl) (fs : List Frame)
    (h : FramesOk u fs) : Ortho (orientX fs) := by
  obtain ⟨_, _, _, _, h3, _⟩ := (orient fl fs).run_near hu hu1 (orient_ok hr fs h)
  rwa [(orient_exact fl fs).1] at h3

/-- **C157, where frames are.** A frame at any depth: nothing throws, and its position in the world, computed with rounding,
is within `(2700 n + 300) u` of the exact one, in units of the distances on its way from the root added up; `n` is the
number of rotation calls on that way. (For `n` up to `1 / (3000 u)`: some 5000 in single precision, 10¹² in double.) -/
theorem C157_place (u : ℝ) (hu : 0 ≤ u) (hu1 : u ≤ 1e-7) (fl : ℝ → ℝ) (hr : IsRelative u fl) (fs : List Frame)
    (h : FramesOk u fs) (hn : (3000 * calls fs + 300) * u ≤ 1) :
    ∃ p, place fl fs = some p ∧ len (p - placeX fs) ≤ (2700 * calls fs + 300) * u * reach fs ∧
      len (placeX fs) ≤ reach fs := by
  induction fs with
  | nil =>
    refine ⟨zero, rfl, ?_, by simp [placeX, reach, len_zero]⟩
    have : zero - placeX [] = zero := by ext <;> simp [placeX, zero]
    rw [this, len_zero]; simp [reach]
  | cons f up ih =>
    have hup : FramesOk u up := fun g hg => h g (List.mem_cons_of_mem _ hg)
    have hrd := hr.rounding hu
    have hcount : ((calls (f :: up) : ℕ) : ℝ) = calls up + f.rot.count + 1 := by simp [calls]
    have hc0 : (0 : ℝ) ≤ f.rot.count := Nat.cast_nonneg _
    have hc1 : (0 : ℝ) ≤ calls up := Nat.cast_nonneg _
    rw [hcount] at hn
    obtain ⟨p, h1, h2, h3⟩ := ih hup (by nlinarith)
    have hok := orient_ok hrd up hup
    obtain ⟨m, g, k1, _, _, _, _⟩ := (orient fl up).run_near hu hu1 hok
    have ho := orientX_ortho hu hu1 hrd up hup
    have ht := turned_near hr hu hu1 hok k1 f.pos
    rw [(orient_exact fl up).1, (orient_exact fl up).2] at ht
    have hl := len_nn f.pos
    have hR := reach_nonneg up
    have lx : len (placeX (f :: up)) ≤ reach (f :: up) := by
      have := len_add (placeX up) ((orientX up).mulVec f.pos)
      rw [len_rot ho] at this
      simp only [placeX, reach]; linarith
    refine ⟨_, by rw [place, h1, Option.bind_some, k1, Option.bind_some], ?_, lx⟩
    set q := flMulVec fl m f.pos with hq
    set A : ℝ := (2700 * calls up + 300) * u with hA
    have hA0 : 0 ≤ A := by positivity
    have hA1 : A ≤ 1 := by nlinarith
    set R := reach up + len f.pos with hRd
    have hR0 : 0 ≤ R := by linarith
    have e' : len ((p + q) - placeX (f :: up)) ≤ A * R := by
      have e1 : (p + q) - placeX (f :: up) = (p - placeX up) + (q - (orientX up).mulVec f.pos) := by
        ext <;> simp [placeX] <;> ring
      rw [e1]
      have := len_add (p - placeX up) (q - (orientX up).mulVec f.pos)
      have w : (2700 * calls up + 214.2) * u * len f.pos ≤ A * len f.pos := by
        apply mul_le_mul_of_nonneg_right _ hl
        rw [hA]; nlinarith
      have : A * R = A * reach up + A * len f.pos := by rw [hRd]; ring
      linarith
    have hs := flAdd_near hr hu p q
    have hpq : len (p + q) ≤ R + A * R := len_le_add e' lx
    have t := len_tri (flAdd fl p q) (p + q) (placeX (f :: up))
    have w1 := mul_le_mul_of_nonneg_left hpq hu
    have w2 : A * R ≤ 1 * R := mul_le_mul_of_nonneg_right hA1 hR0
    have w3 : u * (A * R) ≤ u * R := mul_le_mul_of_nonneg_left (by linarith) hu
    have fin : A * R + 2 * (u * R) ≤ (2700 * ((calls up : ℝ) + f.rot.count + 1) + 300) * u * R := by
      have : 0 ≤ u * R := mul_nonneg hu hR0
      have h4 : 0 ≤ (f.rot.count : ℝ) * (u * R) := mul_nonneg hc0 this
      rw [hA]
      nlinarith
    rw [hcount]
    simp only [reach]
    rw [← hRd]
    linarith

/-- **C157, what a view shows.** The place of an object relative to an observer, both at any depth, is computed without a
throw and within `(8100 n + 6200) u` of the exact one in units of the distances of both from the root: the error of an
object close to its observer is set by how far both are from the root. -/
theorem C157_seen (u : ℝ) (hu : 0 ≤ u) (hu1 : u ≤ 1e-7) (fl : ℝ → ℝ) (hr : IsRelative u fl) (observer object : List Frame)
    (ho : FramesOk u observer) (hb : FramesOk u object) (n : ℕ) (hno : calls observer ≤ n) (hnb : calls object ≤ n)
    (hn : (3000 * n + 3000) * u ≤ 1) :
    ∃ p, seen fl observer object = some p ∧
      len (p - (orientX observer).transpose.mulVec (placeX object - placeX observer)) ≤
        (8100 * n + 6200) * u * (reach observer + reach object) := by
  have hrd := hr.rounding hu
  have no' : (calls observer : ℝ) ≤ n := by exact_mod_cast hno
  have nb' : (calls object : ℝ) ≤ n := by exact_mod_cast hnb
  have hn0 : (0 : ℝ) ≤ n := Nat.cast_nonneg _
  obtain ⟨po, a1, a2, a3⟩ := C157_place u hu hu1 fl hr observer ho
    ((mul_le_mul_of_nonneg_right (by linarith) hu).trans hn)
  obtain ⟨p, b1, b2, b3⟩ := C157_place u hu hu1 fl hr object hb ((mul_le_mul_of_nonneg_right (by linarith) hu).trans hn)
  have hok := orient_ok hrd observer ho
  have hiok : (Calls.inverse fl (orient fl observer)).Ok u := ⟨hrd, hok⟩
  obtain ⟨m, g, k1, _, k3, _, _⟩ := Calls.run_near hu hu1 _ hiok
  have ex : (Calls.inverse fl (orient fl observer)).exact = (orientX observer).transpose := by
    simp only [Calls.exact, (orient_exact fl observer).1]
  have ct : (((Calls.inverse fl (orient fl observer)).count : ℕ) : ℝ) = calls observer + 1 := by
    simp only [Calls.count, (orient_exact fl observer).2]; push_cast; ring
  rw [ex] at k3
  set I := (orientX observer).transpose with hI
  have t1 := turned_near hr hu hu1 hiok k1 (-po)
  have t2 := turned_near hr hu hu1 hiok k1 p
  rw [ex, ct] at t1 t2
  refine ⟨_, by rw [seen, a1, Option.bind_some, b1, Option.bind_some, k1, Option.bind_some], ?_⟩
  set B : ℝ := (2700 * n + 300) * u with hB
  have hB0 : 0 ≤ B := by positivity
  have hB1 : B ≤ 1 := (mul_le_mul_of_nonneg_right (by linarith) hu).trans hn
  set Ro := reach observer
  set Rb := reach object
  have hRo : 0 ≤ Ro := reach_nonneg _
  have hRb : 0 ≤ Rb := reach_nonneg _
  have a2' : len (po - placeX observer) ≤ B * Ro :=
    a2.trans (mul_le_mul_of_nonneg_right (mul_le_mul_of_nonneg_right (by linarith) hu) hRo)
  have b2' : len (p - placeX object) ≤ B * Rb :=
    b2.trans (mul_le_mul_of_nonneg_right (mul_le_mul_of_nonneg_right (by linarith) hu) hRb)
  have lpo : len po ≤ 2 * Ro := by
    have := len_le_add a2' a3
    have := mul_le_mul_of_nonneg_right hB1 hRo
    linarith
  have lp : len p ≤ 2 * Rb := by
    have := len_le_add b2' b3
    have := mul_le_mul_of_nonneg_right hB1 hRb
    linarith
  have lneg : len (-po) = len po := by unfold len; congr 1; simp only [dot, neg_x, neg_y, neg_z]; ring
  rw [lneg] at t1
  -- sharper sizes: the lengths are `(1 + B)` times the reach
  set D : ℝ := (2700 * n + 2914.2) * u with hD
  have hD0 : 0 ≤ D := by positivity
  have t1' : len (flMulVec fl m (-po) - I.mulVec (-po)) ≤ D * len po :=
    t1.trans (mul_le_mul_of_nonneg_right (mul_le_mul_of_nonneg_right (by linarith) hu) (len_nn _))
  have t2' : len (flMulVec fl m p - I.mulVec p) ≤ D * len p :=
    t2.trans (mul_le_mul_of_nonneg_right (mul_le_mul_of_nonneg_right (by linarith) hu) (len_nn _))
  set q1 := flMulVec fl m (-po)
  set q2 := flMulVec fl m p
  set X := I.mulVec (placeX object - placeX observer) with hX
  have lX : len X ≤ Ro + Rb := by
    rw [hX, len_rot k3]
    have := len_tri (placeX object) zero (placeX observer)
    have e1 : len (placeX object - zero) = len (placeX object) := by congr 1; ext <;> simp [zero]
    have e2 : len (zero - placeX observer) = len (placeX observer) := by
      unfold len; congr 1; simp only [dot, sub_x, sub_y, sub_z, zero]; ring
    linarith
  have main : len ((q1 + q2) - X) ≤ (2 * D + B) * (Ro + Rb) := by
    have e : (q1 + q2) - X = (q1 - I.mulVec (-po)) + ((q2 - I.mulVec p) +
        I.mulVec ((p - placeX object) - (po - placeX observer))) := by
      rw [hX]; ext <;> simp [M3.mulVec] <;> ring
    rw [e]
    have w1 := len_add (q1 - I.mulVec (-po)) ((q2 - I.mulVec p) +
        I.mulVec ((p - placeX object) - (po - placeX observer)))
    have w2 := len_add (q2 - I.mulVec p) (I.mulVec ((p - placeX object) - (po - placeX observer)))
    rw [len_rot k3] at w2
    have w3 := len_tri (p - placeX object) zero (po - placeX observer)
    have e1 : len (p - placeX object - zero) = len (p - placeX object) := by congr 1; ext <;> simp [zero]
    have e2 : len (zero - (po - placeX observer)) = len (po - placeX observer) := by
      unfold len; congr 1; simp only [dot, sub_x, sub_y, sub_z, zero]; ring
    rw [e1, e2] at w3
    have w4 := mul_le_mul_of_nonneg_left lpo hD0
    have w5 := mul_le_mul_of_nonneg_left lp hD0
    have : (2 * D + B) * (Ro + Rb) = D * (2 * Ro) + D * (2 * Rb) + B * Ro + B * Rb := by ring
    linarith
  have hD1 : D ≤ 1 := (mul_le_mul_of_nonneg_right (by linarith) hu).trans hn
  have hS : 0 ≤ Ro + Rb := add_nonneg hRo hRb
  have w3 : (2 * D + B) * (Ro + Rb) ≤ 3 * (Ro + Rb) := mul_le_mul_of_nonneg_right (by linarith) hS
  have lq : len (q1 + q2) ≤ 4 * (Ro + Rb) := (len_le_add main lX).trans (by linarith)
  have hs := flAdd_near hr hu q1 q2
  have t := len_tri (flAdd fl q1 q2) (q1 + q2) X
  have w1 := mul_le_mul_of_nonneg_left lq hu
  have uS : 0 ≤ u * (Ro + Rb) := mul_nonneg hu hS
  have fin : (2 * D + B) * (Ro + Rb) + u * (4 * (Ro + Rb)) ≤ (8100 * n + 6200) * u * (Ro + Rb) := by
    rw [hD, hB]; nlinarith
  linarith

/-! ## A concrete scene -/

/-- arithmetic that is always a little too large -/
noncomputable def exFl (x : ℝ) : ℝ := x + x / 2 ^ 24

/-- frames five units apart, each turned (with its own rounding), nested `k` deep -/
noncomputable def exDeep : ℕ → List Frame
  | 0 => []
  | k + 1 => ⟨exChain 1, ⟨3, 4, 0⟩⟩ :: exDeep k

theorem exDeep_facts (k : ℕ) : FramesOk (1 / 2 ^ 24) (exDeep k) ∧ calls (exDeep k) = 5 * k ∧ reach (exDeep k) = 5 * k := by
  induction k with
  | zero => exact ⟨fun f hf => by simp [exDeep] at hf, rfl, by simp [exDeep, reach]⟩
  | succ k ih =>
    refine ⟨fun f hf => ?_, ?_, ?_⟩
    · simp only [exDeep, List.mem_cons] at hf
      rcases hf with rfl | hf
      · exact (exChain_ok 1).1
      · exact ih.1 f hf
    · simp only [exDeep, calls, ih.2.1, (exChain_ok 1).2]; ring
    · have : len (⟨3, 4, 0⟩ : V3) = 5 := by
        unfold len dot
        rw [show (3 * 3 + 4 * 4 + 0 * 0 : ℝ) = 5 ^ 2 by norm_num]
        exact Real.sqrt_sq (by norm_num)
      simp only [exDeep, reach, ih.2.2, this]; push_cast; ring

theorem exFl_relative : IsRelative (1 / 2 ^ 24) exFl := by
  intro x
  have : exFl x - x = 1 / 2 ^ 24 * x := by unfold exFl; ring
  rw [this, abs_mul, abs_of_pos (by norm_num : (0 : ℝ) < 1 / 2 ^ 24)]

-- a thousand frames deep, in single precision
example : ∃ p, place exFl (exDeep 1000) = some p := by
  obtain ⟨p, h, _⟩ := C157_place (1 / 2 ^ 24) (by norm_num) (by norm_num) exFl exFl_relative (exDeep 1000) (exDeep_facts 1000).1
    (by rw [(exDeep_facts 1000).2.1]; norm_num)
  exact ⟨p, h⟩

-- an observer and an object ten frames deep
example : ∃ p, seen exFl (exDeep 10) (exDeep 10) = some p ∧ len p ≤ 3 := by
  obtain ⟨p, h, k⟩ := C157_seen (1 / 2 ^ 24) (by norm_num) (by norm_num) exFl exFl_relative (exDeep 10) (exDeep 10)
    (exDeep_facts 10).1 (exDeep_facts 10).1 50 (exDeep_facts 10).2.1.le (exDeep_facts 10).2.1.le (by norm_num)
  refine ⟨p, h, ?_⟩
  have e : p - (orientX (exDeep 10)).transpose.mulVec (placeX (exDeep 10) - placeX (exDeep 10)) = p := by
    ext <;> simp [M3.mulVec]
  rw [e, (exDeep_facts 10).2.2] at k
  exact k.trans (by norm_num)

end Huira.RotFl
