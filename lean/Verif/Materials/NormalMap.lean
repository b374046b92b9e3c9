import Verif.Materials.MaterialEval
import Verif.Image.Props

/-!
# Normal maps from the picture to the shading normal (C131)

Models `add_normal_texture` (`scene.ipp` 968-987), the look-up of `Material::evaluate` (`material.ipp` 43-45) through
`sample_bilinear` with its default wrap mode (`image.hpp` 119-120, `image.ipp` 411-441), and what the material does with it
(`Materials/MaterialModel`).  `float` is the reals; a vector of length zero that is normalised is `none` (NaN in the code),
and it stays so in every sum it enters, also with weight zero.
-/

set_option linter.unusedSimpArgs false

namespace Huira.NormalMap

noncomputable section
open Classical Huira.Sampling Huira.Bsdf Huira.Material Huira.V3

/-- `Image<Vec3<float>>` or `Image<RGB>` as the user fills it: the colour of every pixel. -/
structure Picture where
  w : ℕ
  h : ℕ
  px : ℤ → ℤ → V3

/-- `Image<Vec3<float>>` after decoding; `none` is a NaN. -/
structure Decoded where
  w : ℕ
  h : ℕ
  px : ℤ → ℤ → Option V3

/-- One pixel of the loop in `add_normal_texture(Image<Vec3<float>>&&)` (`scene.ipp` 972-974). -/
def decode (c : V3) : Option V3 := V3.normalize? ⟨c.x * 2 - 1, c.y * 2 - 1, c.z * 2 - 1⟩

/-- `add_normal_texture(Image<Vec3<float>>&&)` (`scene.ipp` 968-976). -/
def addVec (p : Picture) : Decoded := ⟨p.w, p.h, fun x y => decode (p.px x y)⟩

/-- `add_normal_texture(Image<RGB>&&)` (`scene.ipp` 978-987): the three channels are copied into a picture of the same size. -/
def addRgb (p : Picture) : Decoded := addVec ⟨p.w, p.h, fun x y => ⟨(p.px x y).x, (p.px x y).y, (p.px x y).z⟩⟩

/-- The four reads and their weighted sum (`image.ipp` 430-441). -/
def mixAt (b : Image.Bilinear ℝ) (px : ℤ → ℤ → Option V3) : Option V3 := do
  let a00 ← px b.x0 b.y0
  let a10 ← px b.x1 b.y0
  let a01 ← px b.x0 b.y1
  let a11 ← px b.x1 b.y1
  return ((1 - b.fx) * (1 - b.fy) * a00 + b.fx * (1 - b.fy) * a10) + ((1 - b.fx) * b.fy * a01 + b.fx * b.fy * a11)

/-- `sample_bilinear(u, v)` with the default `WrapMode::Repeat` (`image.hpp` 119, `image.ipp` 411-441). -/
def sample (d : Decoded) (u v : ℝ) : Option V3 :=
  if d.w * d.h = 0 then some V3.zero else do
    let u ← Image.wrap .rep u
    let v ← Image.wrap .rep v
    mixAt (Image.bilinearSetup d.w d.h u v) d.px

/-- `Material::evaluate` (`material.ipp` 12-66) of a material whose normal image is the picture: the image is read only when
the reflectance model asks for normals and the surface has a tangent (`material.ipp` 41-43); a NaN makes the result NaN. -/
def evaluateWith {n : ℕ} (m : Mat n) (id : ℕ) (d : Decoded) (is : Isect n) : Option (Eval n) :=
  if m.evalNormal ∧ is.tangent ≠ V3.zero then
    (sample d is.u is.v).bind fun a => evaluate (setNormal ⟨id, fun _ _ => a⟩ m) is
  else evaluate (setNormal ⟨id, fun _ _ => V3.zero⟩ m) is

/-! ### Specification -/

/-- The direction a colour stands for, in the frame of the surface (not of unit length). -/
def direction (c : V3) : V3 := ⟨2 * c.x - 1, 2 * c.y - 1, 2 * c.z - 1⟩

/-- The unit vector along a direction. -/
def unit (a : V3) : V3 := (1 / len a) * a

/-- `u` is the unit vector along `v`. -/
def Along (u v : V3) : Prop := dot u u = 1 ∧ ∃ k : ℝ, 0 < k ∧ u = k * v

/-- A direction given in the frame of the surface, tilted by the factor, in the world. -/
def tilt {n : ℕ} (is : Isect n) (f : ℝ) (a : V3) : V3 := (f * a.x * is.tangent + f * a.y * is.bitangent) + a.z * is.normalS

/-- Interpolation between four vectors. -/
def blend (s t : ℝ) (a b c d : V3) : V3 := ((1 - s) * (1 - t) * a + s * (1 - t) * b) + ((1 - s) * t * c + s * t * d)

/-- The surface and the texture coordinates where a map is looked up: between the pixel `(x, y)` and its neighbours, at the
fractions `s` and `t`, in any of the periods of the texture. -/
structure Between {n : ℕ} (p : Picture) (is : Isect n) (x y : ℕ) (s t : ℝ) : Prop where
  right : x + 1 < p.w
  below : y + 1 < p.h
  s0 : 0 ≤ s
  s1 : s < 1
  t0 : 0 ≤ t
  t1 : t < 1
  u : ∃ k : ℤ, is.u = k + (x + s) / (p.w - 1)
  v : ∃ k : ℤ, is.v = k + (y + t) / (p.h - 1)

/-! ### Properties -/

theorem addRgb_eq (p : Picture) : addRgb p = addVec p := rfl

theorem wrap_rep_frac (k : ℤ) {r : ℝ} (h0 : 0 ≤ r) (h1 : r < 1) : Image.wrap .rep ((k : ℝ) + r) = some r := by
  have hf : Image.fmod1 ((k : ℝ) + r) = if (0 : ℝ) ≤ k + r then r else if r = 0 then 0 else r - 1 := by
    unfold Image.fmod1 Image.trunc
    split_ifs with h hr
    · have e : ⌊(k : ℝ) + r⌋ = k := by rw [Int.floor_eq_iff]; constructor <;> linarith
      rw [e]; ring
    · subst hr
      have e : ⌈(k : ℝ) + 0⌉ = k := by rw [add_zero]; exact Int.ceil_intCast k
      rw [e]; ring
    · have hr0 : 0 < r := lt_of_le_of_ne h0 (Ne.symm hr)
      have e : ⌈(k : ℝ) + r⌉ = k + 1 := by rw [Int.ceil_eq_iff]; push_cast; constructor <;> linarith
      rw [e]; push_cast; ring
  show some (if Image.fmod1 ((k : ℝ) + r) < 0 then Image.fmod1 ((k : ℝ) + r) + 1 else Image.fmod1 ((k : ℝ) + r)) = some r
  rw [hf]
  congr 1
  split_ifs <;> linarith

theorem axis_between {w x : ℕ} {s : ℝ} (hx : x + 1 < w) (h0 : 0 ≤ s) (h1 : s < 1) :
    0 ≤ ((x : ℝ) + s) / ((w : ℝ) - 1) ∧ ((x : ℝ) + s) / ((w : ℝ) - 1) < 1 ∧
      Image.trunc (((x : ℝ) + s) / ((w : ℝ) - 1) * ((w : ℝ) - 1)) = x ∧ ((x : ℝ) + s) / ((w : ℝ) - 1) * ((w : ℝ) - 1) = x + s := by
  have hw : (x : ℝ) + 2 ≤ w := by exact_mod_cast hx
  have hx0 : (0 : ℝ) ≤ x := Nat.cast_nonneg x
  have hd : (0 : ℝ) < (w : ℝ) - 1 := by linarith
  have e : ((x : ℝ) + s) / ((w : ℝ) - 1) * ((w : ℝ) - 1) = x + s := div_mul_cancel₀ _ hd.ne'
  refine ⟨by positivity, by rw [div_lt_one hd]; linarith, ?_, e⟩
  rw [e, Image.trunc, if_pos (by linarith), Int.floor_eq_iff]
  push_cast; constructor <;> linarith

/-- The look-up between four pixels, in every period. -/
theorem sample_between {n : ℕ} {p : Picture} {is : Isect n} {x y : ℕ} {s t : ℝ} (h : Between p is x y s t) {a b c d : V3}
    (ha : decode (p.px x y) = some a) (hb : decode (p.px (x + 1) y) = some b) (hc : decode (p.px x (y + 1)) = some c)
    (hd : decode (p.px (x + 1) (y + 1)) = some d) : sample (addVec p) is.u is.v = some (blend s t a b c d) := by
  obtain ⟨k, hk⟩ := h.u
  obtain ⟨l, hl⟩ := h.v
  obtain ⟨p1, p2, p3, p4⟩ := axis_between h.right h.s0 h.s1
  obtain ⟨q1, q2, q3, q4⟩ := axis_between h.below h.t0 h.t1
  have e1 : min ((x : ℤ) + 1) ((p.w : ℤ) - 1) = x + 1 := min_eq_left (by have := h.right; omega)
  have e0 : ¬ p.w * p.h = 0 := by
    have h1 := h.right; have h2 := h.below
    exact Nat.mul_ne_zero (by omega) (by omega)
  have e2 : min ((y : ℤ) + 1) ((p.h : ℤ) - 1) = y + 1 := min_eq_left (by have := h.below; omega)
  rw [sample, if_neg (show ¬ (addVec p).w * (addVec p).h = 0 from e0)]
  simp only [hk, hl, wrap_rep_frac k p1 p2, wrap_rep_frac l q1 q2, Option.bind_eq_bind, Option.bind_some, addVec, mixAt,
    Image.bilinearSetup, p3, q3, e1, e2, ha, hb, hc, hd, Option.pure_def]
  rw [p4, q4]
  congr 1
  have f1 : (x : ℝ) + s - ((x : ℤ) : ℝ) = s := by push_cast; ring
  have f2 : (y : ℝ) + t - ((y : ℤ) : ℝ) = t := by push_cast; ring
  rw [f1, f2]; rfl

theorem decode_direction {c : V3} (h : direction c ≠ V3.zero) : decode c = some (unit (direction c)) := by
  have e : (⟨c.x * 2 - 1, c.y * 2 - 1, c.z * 2 - 1⟩ : V3) = direction c := by
    unfold direction; ext <;> simp only <;> ring
  rw [decode, e, normalize?_of_ne h]; rfl

theorem decode_grey {c : V3} (h : direction c = V3.zero) : decode c = none := by
  have e : (⟨c.x * 2 - 1, c.y * 2 - 1, c.z * 2 - 1⟩ : V3) = direction c := by
    unfold direction; ext <;> simp only <;> ring
  rw [decode, e, h]; simp [V3.normalize?, dot, V3.zero]

theorem ne_zero_of_z {a : V3} (h : 0 < a.z) : a ≠ V3.zero := by
  intro e; rw [e] at h; simp [V3.zero] at h

theorem unit_z {a : V3} (h : 0 < a.z) : 0 < (unit a).z := by
  have := len_pos (ne_zero_of_z h)
  simp only [unit, hmul_z]; positivity

/-- The shading normal is along the tilted direction, whatever the length of the vector in the image. -/
theorem shading_along {n : ℕ} (m : Mat n) (id : ℕ) (a : V3) (is : Isect n) (hn : m.evalNormal = true)
    (hf : Orthonormal is.tangent is.bitangent is.normalS) (hz : 0 < a.z) :
    ∃ e, evaluate (setNormal ⟨id, fun _ _ => a⟩ m) is = some e ∧ Along e.isect.normalS (tilt is m.normalF a) ∧
      0 < dot e.isect.normalS is.normalS ∧ Orthonormal e.isect.tangent e.isect.bitangent e.isect.normalS := by
  obtain ⟨e, he, hpos⟩ := C94_defined (setNormal ⟨id, fun _ _ => a⟩ m) is hf hz
  have ho := C94_frame _ is e he hf.nn
  refine ⟨e, he, ⟨ho.nn, ?_⟩, hpos, ho⟩
  have htz : is.tangent ≠ V3.zero := by
    intro e; have := hf.tt; rw [e] at this; simp [dot, V3.zero] at this
  simp only [evaluate, Option.bind_eq_some_iff, Option.map_eq_some_iff] at he
  obtain ⟨ns, hns, t, ht, rfl⟩ := he
  simp only [shadingNormal, setNormal, hn, if_true] at hns
  rw [if_pos htz] at hns
  simp only [perturb, Option.bind_eq_some_iff] at hns
  obtain ⟨b, hb, s, hs, hc⟩ := hns
  obtain ⟨_, ha0, rfl⟩ := normalize?_some hb
  obtain ⟨_, hb0, rfl⟩ := normalize?_some hs
  obtain ⟨_, hc0, rfl⟩ := normalize?_some hc
  have l1 := len_pos ha0
  have l2 := len_pos hb0
  have l3 := len_pos hc0
  simp only [normalize_eq, hmul_x, hmul_y, hmul_z] at l1 l2 l3 ⊢
  refine ⟨_, mul_pos (mul_pos (one_div_pos.2 l3) (one_div_pos.2 l2)) (one_div_pos.2 l1), ?_⟩
  ext <;> simp only [tilt, hmul_x, hmul_y, hmul_z, add_x, add_y, add_z] <;> ring

theorem blend_z {s t : ℝ} (s0 : 0 ≤ s) (s1 : s < 1) (t0 : 0 ≤ t) (t1 : t < 1) {a b c d : V3} (ha : 0 < a.z) (hb : 0 < b.z)
    (hc : 0 < c.z) (hd : 0 < d.z) : 0 < (blend s t a b c d).z := by
  have h1 : 0 < 1 - s := by linarith
  have h2 : 0 < 1 - t := by linarith
  simp only [blend, add_z, hmul_z]
  have : 0 < (1 - s) * (1 - t) * a.z := by positivity
  positivity


/-- **C131 (partial).**  Between four pixels whose colours have more than one half of blue, the shading normal is the unit
vector along the interpolated directions of the four pixels, tilted by the factor, in the frame of the surface; it stays on
the outer side, and the frame handed on is orthonormal.  Every period of the texture, every factor, every material that asks for normals. -/
theorem C131_texture_partial {n : ℕ} (m : Mat n) (id : ℕ) (p : Picture) (is : Isect n) {x y : ℕ} {s t : ℝ} (hn : m.evalNormal = true)
    (hf : Orthonormal is.tangent is.bitangent is.normalS) (hb : Between p is x y s t) (h00 : 1 / 2 < (p.px x y).z)
    (h10 : 1 / 2 < (p.px (x + 1) y).z) (h01 : 1 / 2 < (p.px x (y + 1)).z) (h11 : 1 / 2 < (p.px (x + 1) (y + 1)).z) :
    ∃ e, evaluateWith m id (addRgb p) is = some e ∧
      Along e.isect.normalS (tilt is m.normalF (blend s t (unit (direction (p.px x y))) (unit (direction (p.px (x + 1) y)))
        (unit (direction (p.px x (y + 1)))) (unit (direction (p.px (x + 1) (y + 1)))))) ∧
      0 < dot e.isect.normalS is.normalS ∧ Orthonormal e.isect.tangent e.isect.bitangent e.isect.normalS := by
  have hz : ∀ c : V3, 1 / 2 < c.z → 0 < (direction c).z := by intro c h; simp only [direction]; linarith
  have htz : is.tangent ≠ V3.zero := by
    intro e; have := hf.tt; rw [e] at this; simp [dot, V3.zero] at this
  have hs := sample_between hb (decode_direction (ne_zero_of_z (hz _ h00))) (decode_direction (ne_zero_of_z (hz _ h10)))
    (decode_direction (ne_zero_of_z (hz _ h01))) (decode_direction (ne_zero_of_z (hz _ h11)))
  rw [evaluateWith, if_pos ⟨hn, htz⟩, addRgb_eq, hs, Option.bind_some]
  exact shading_along m id _ is hn hf
    (blend_z hb.s0 hb.s1 hb.t0 hb.t1 (unit_z (hz _ h00)) (unit_z (hz _ h10)) (unit_z (hz _ h01)) (unit_z (hz _ h11)))

/-- **C131 (partial).**  At a pixel itself the neighbours do not matter (as long as they are normals): the shading normal is
along the direction of the colour of that pixel. -/
theorem C131_texel_partial {n : ℕ} (m : Mat n) (id : ℕ) (p : Picture) (is : Isect n) {x y : ℕ} (hn : m.evalNormal = true)
    (hf : Orthonormal is.tangent is.bitangent is.normalS) (hb : Between p is x y 0 0) (h00 : 1 / 2 < (p.px x y).z)
    (h10 : 1 / 2 < (p.px (x + 1) y).z) (h01 : 1 / 2 < (p.px x (y + 1)).z) (h11 : 1 / 2 < (p.px (x + 1) (y + 1)).z) :
    ∃ e, evaluateWith m id (addRgb p) is = some e ∧ Along e.isect.normalS (tilt is m.normalF (direction (p.px x y))) := by
  obtain ⟨e, he, ⟨h1, k, hk, h2⟩, -, -⟩ := C131_texture_partial m id p is hn hf hb h00 h10 h01 h11
  have hz : 0 < (direction (p.px x y)).z := by simp only [direction]; linarith
  have hl := len_pos (ne_zero_of_z hz)
  refine ⟨e, he, h1, k * (1 / len (direction (p.px x y))), by positivity, ?_⟩
  rw [h2]
  ext <;> simp only [tilt, blend, unit, hmul_x, hmul_y, hmul_z, add_x, add_y, add_z] <;> ring

/-- The surface used in the examples. -/
def flatSurface (u v : ℝ) : Isect 1 := ⟨V3.zero, ⟨0, 0, 1⟩, ⟨0, 0, 1⟩, ⟨1, 0, 0⟩, ⟨0, 1, 0⟩, u, v, ⟨0, 0, 1⟩, fun _ => 1⟩

theorem flat_orthonormal (u v : ℝ) : Orthonormal (flatSurface u v).tangent (flatSurface u v).bitangent (flatSurface u v).normalS := by
  constructor <;> simp [flatSurface, dot, cross]

/-- Three by three pixels, half way between two of them, one period further: the factor doubles the tilt. -/
example : ∃ e, evaluateWith (setNormalF 2 (new .lambertian (sceneDefaults 0))) 9
      (addRgb ⟨3, 3, fun x _ => if x = 1 then ⟨0.8, 0.5, 0.9⟩ else ⟨0.5, 0.5, 1⟩⟩) (flatSurface (1 + 1 / 2) 0) = some e ∧
    Along e.isect.normalS ⟨2 * 0.6, 0, 0.8⟩ := by
  obtain ⟨e, he, h1, k, hk, h2⟩ := C131_texel_partial (setNormalF 2 (new .lambertian (sceneDefaults 0))) 9
    ⟨3, 3, fun x _ => if x = 1 then ⟨0.8, 0.5, 0.9⟩ else ⟨0.5, 0.5, 1⟩⟩ (flatSurface (1 + 1 / 2) 0) (x := 1) (y := 0) rfl
    (flat_orthonormal _ _) ⟨by norm_num, by norm_num, by norm_num, by norm_num, by norm_num, by norm_num,
      ⟨1, by simp [flatSurface]; norm_num⟩, ⟨0, by simp [flatSurface]⟩⟩ (by norm_num) (by norm_num) (by norm_num) (by norm_num)
  refine ⟨e, he, h1, k, hk, h2.trans ?_⟩
  have e1 : tilt (flatSurface (1 + 1 / 2) 0) (setNormalF 2 (new (n := 1) .lambertian (sceneDefaults 0))).normalF (direction ⟨0.8, 0.5, 0.9⟩) =
      ⟨2 * 0.6, 0, 0.8⟩ := by
    ext <;> simp [tilt, direction, flatSurface, setNormalF] <;> norm_num
  rw [← e1]; rfl

/-- **C131 (partial).**  A picture of any size all of whose colours have more than one half of blue gives a normal at every
texture coordinate, on the outer side of the surface, with an orthonormal frame. -/
theorem C131_defined_partial {n : ℕ} (m : Mat n) (id : ℕ) (p : Picture) (is : Isect n) (hw : 0 < p.w) (hh : 0 < p.h)
    (hf : Orthonormal is.tangent is.bitangent is.normalS)
    (hp : ∀ x y : ℤ, 0 ≤ x → x < p.w → 0 ≤ y → y < p.h → 1 / 2 < (p.px x y).z) :
    ∃ e, evaluateWith m id (addRgb p) is = some e ∧ 0 < dot e.isect.normalS is.normalS ∧
      Orthonormal e.isect.tangent e.isect.bitangent e.isect.normalS := by
  have hz : ∀ c : V3, 1 / 2 < c.z → 0 < (direction c).z := by intro c h; simp only [direction]; linarith
  have htz : is.tangent ≠ V3.zero := by
    intro e; have := hf.tt; rw [e] at this; simp [dot, V3.zero] at this
  by_cases hn : m.evalNormal = true
  · obtain ⟨-, u, v, hu, hv, hin⟩ := Image.C18_inside_partial (K := ℝ) p.w p.h hw hh .rep is.u is.v (by simp)
    have ru := Image.wrap_range .rep is.u u hu
    have rv := Image.wrap_range .rep is.v v hv
    have bu := Image.bilinear_range p.w hw u ru.1 ru.2
    have bv := Image.bilinear_range p.h hh v rv.1 rv.2
    have hlt : ∀ (k : ℕ) (c : ℝ), 0 ≤ c * ((k : ℝ) - 1) → c * ((k : ℝ) - 1) - (Image.trunc (c * ((k : ℝ) - 1)) : ℝ) < 1 := by
      intro k c h
      have := Int.lt_floor_add_one (c * ((k : ℝ) - 1))
      rw [Image.trunc, if_pos h]; linarith
    have nn : ∀ (k : ℕ) (c : ℝ), 0 < k → 0 ≤ c → 0 ≤ c * ((k : ℝ) - 1) := by
      intro k c hk hc
      have : (1 : ℝ) ≤ k := by exact_mod_cast hk
      exact mul_nonneg hc (by linarith)
    have hd : ∀ x ∈ [(Image.bilinearSetup p.w p.h u v).x0, (Image.bilinearSetup p.w p.h u v).x1],
        ∀ y ∈ [(Image.bilinearSetup p.w p.h u v).y0, (Image.bilinearSetup p.w p.h u v).y1],
        ∃ a : V3, decode (p.px x y) = some a ∧ 0 < a.z := by
      intro x hx y hy
      obtain ⟨i1, i2, i3, i4⟩ := hin x hx y hy
      have := hz _ (hp x y i1 i2 i3 i4)
      exact ⟨_, decode_direction (ne_zero_of_z this), unit_z this⟩
    obtain ⟨a, ha, ha0⟩ := hd _ (List.mem_cons_self) _ (List.mem_cons_self)
    obtain ⟨b, hb, hb0⟩ := hd _ (List.mem_cons_of_mem _ List.mem_cons_self) _ (List.mem_cons_self)
    obtain ⟨c, hc, hc0⟩ := hd _ (List.mem_cons_self) _ (List.mem_cons_of_mem _ List.mem_cons_self)
    obtain ⟨d, hd, hd0⟩ := hd _ (List.mem_cons_of_mem _ List.mem_cons_self) _ (List.mem_cons_of_mem _ List.mem_cons_self)
    have e0 : ¬ (addVec p).w * (addVec p).h = 0 := Nat.mul_ne_zero hw.ne' hh.ne'
    have hs : sample (addVec p) is.u is.v = some (blend (Image.bilinearSetup p.w p.h u v).fx (Image.bilinearSetup p.w p.h u v).fy a b c d) := by
      rw [sample, if_neg e0]
      simp only [hu, hv, Option.bind_eq_bind, Option.bind_some, mixAt]
      simp only [addVec, ha, hb, hc, hd, Option.bind_some, Option.pure_def]
      rfl
    rw [evaluateWith, if_pos ⟨hn, htz⟩, addRgb_eq, hs, Option.bind_some]
    obtain ⟨e, he, -, h1, h2⟩ := shading_along m id _ is hn hf
      (blend_z bu.2.2.1 (hlt _ _ (nn _ _ hw ru.1)) bv.2.2.1 (hlt _ _ (nn _ _ hh rv.1)) ha0 hb0 hc0 hd0)
    exact ⟨e, he, h1, h2⟩
  · rw [evaluateWith, if_neg (fun h => hn h.1)]
    obtain ⟨e, he, h1⟩ := C94_defined (setNormal ⟨id, fun _ _ => ⟨0, 0, 1⟩⟩ m) is hf (by simp [setNormal])
    have e1 : evaluate (setNormal ⟨id, fun _ _ => V3.zero⟩ m) is = evaluate (setNormal ⟨id, fun _ _ => ⟨0, 0, 1⟩⟩ m) is := by
      have : ∀ a : V3, shadingNormal (setNormal ⟨id, fun _ _ => a⟩ m) is = some is.normalS := by
        intro a; rw [shadingNormal, if_neg (show ¬ (setNormal ⟨id, fun _ _ => a⟩ m).evalNormal = true from hn)]
      simp only [evaluate, this]; rfl
    rw [e1]
    exact ⟨e, he, h1, C94_frame _ is e he hf.nn⟩

example : ∃ e, evaluateWith (new .cookTorrance (sceneDefaults 0)) 9 (addRgb ⟨1, 2, fun _ y => ⟨0.1, 0.2, 0.6 + y / 10⟩⟩) (flatSurface (-3.7) 12.4) = some e ∧
    0 < dot e.isect.normalS (flatSurface (-3.7) 12.4).normalS ∧ Orthonormal e.isect.tangent e.isect.bitangent e.isect.normalS :=
  C131_defined_partial _ _ _ _ (by norm_num) (by norm_num) (flat_orthonormal _ _) (by
    intro x y _ _ h _
    have : (0 : ℝ) ≤ y := by exact_mod_cast h
    simp only; linarith)

/-- **C131 (partial).**  The flat colour — red and green one half, blue more than that — on the whole picture changes
nothing: the normal, the tangent and the bitangent of the surface come back, whatever the factor. -/
theorem C131_flat_partial {n : ℕ} (m : Mat n) (id : ℕ) (p : Picture) (is : Isect n) {x y : ℕ} {s t : ℝ} (hn : m.evalNormal = true)
    (hf : Orthonormal is.tangent is.bitangent is.normalS) (hb : Between p is x y s t)
    (hp : ∀ x y, (p.px x y).x = 1 / 2 ∧ (p.px x y).y = 1 / 2 ∧ 1 / 2 < (p.px x y).z) :
    ∃ e, evaluateWith m id (addRgb p) is = some e ∧ e.isect = is := by
  obtain ⟨e, he, ⟨h1, k, hk, h2⟩, h3, h4⟩ := C131_texture_partial m id p is hn hf hb (hp _ _).2.2 (hp _ _).2.2 (hp _ _).2.2 (hp _ _).2.2
  refine ⟨e, he, ?_⟩
  have hdx : ∀ x y, (direction (p.px x y)).x = 0 := by intro x y; simp only [direction, (hp x y).1]; norm_num
  have hdy : ∀ x y, (direction (p.px x y)).y = 0 := by intro x y; simp only [direction, (hp x y).2.1]; norm_num
  have e1 : ∃ c : ℝ, e.isect.normalS = c * is.normalS := by
    refine ⟨k * (blend s t (unit (direction (p.px x y))) (unit (direction (p.px (x + 1) y)))
        (unit (direction (p.px x (y + 1)))) (unit (direction (p.px (x + 1) (y + 1))))).z, h2.trans ?_⟩
    ext <;> simp only [tilt, blend, unit, hmul_x, hmul_y, hmul_z, add_x, add_y, add_z, hdx, hdy] <;> ring
  obtain ⟨c, hc⟩ := e1
  have hc1 : c = 1 := by
    rw [hc, dot_smul_left, hf.nn] at h3
    rw [hc, dot_smul_left, dot_smul_right, hf.nn] at h1
    nlinarith
  have hN : e.isect.normalS = is.normalS := by rw [hc, hc1]; ext <;> simp
  have htz : is.tangent ≠ V3.zero := by
    intro e; have := hf.tt; rw [e] at this; simp [dot, V3.zero] at this
  rw [evaluateWith, if_pos ⟨hn, htz⟩, Option.bind_eq_some_iff] at he
  obtain ⟨a, -, he⟩ := he
  simp only [evaluate, Option.bind_eq_some_iff, Option.map_eq_some_iff] at he
  obtain ⟨ns, -, q, hq, rfl⟩ := he
  simp only at hN
  subst hN
  have e2 : is.tangent - (dot is.tangent is.normalS : ℝ) * is.normalS = is.tangent := by rw [hf.tn]; ext <;> simp
  rw [e2, normalize?_of_ne htz] at hq
  have e3 : V3.normalize is.tangent = is.tangent := by rw [V3.normalize_eq, len, hf.tt]; ext <;> simp
  rw [e3] at hq
  obtain rfl := Option.some.inj hq
  have e4 : V3.cross is.normalS is.tangent = is.bitangent := by
    obtain ⟨tt, bb, nn, tb, tn, bn, right⟩ := hf
    have hx := congrArg V3.x right
    have hy := congrArg V3.y right
    have hz := congrArg V3.z right
    simp only [cross, dot] at *
    ext <;> simp only <;> grind
  simp only [e4]

example : ∃ e, evaluateWith (setNormalF 3 (new .orenNayar (sceneDefaults 0))) 9 (addRgb ⟨2, 2, fun _ _ => ⟨1 / 2, 1 / 2, 1⟩⟩) (flatSurface 0.25 0.5) = some e ∧
    e.isect = flatSurface 0.25 0.5 :=
  C131_flat_partial (x := 0) (y := 0) (s := 0.25) (t := 0.5) _ _ _ _ rfl (flat_orthonormal _ _)
    ⟨by norm_num, by norm_num, by norm_num, by norm_num, by norm_num, by norm_num,
      ⟨0, by simp [flatSurface]; norm_num⟩, ⟨0, by simp [flatSurface]; norm_num⟩⟩ (by norm_num)

/-- **C131 (partial).**  The factor zero switches the map off: the normal of the surface comes back for every such picture. -/
theorem C131_off_partial {n : ℕ} (m : Mat n) (id : ℕ) (p : Picture) (is : Isect n) {x y : ℕ} {s t : ℝ} (hn : m.evalNormal = true)
    (hf : Orthonormal is.tangent is.bitangent is.normalS) (hb : Between p is x y s t) (h00 : 1 / 2 < (p.px x y).z)
    (h10 : 1 / 2 < (p.px (x + 1) y).z) (h01 : 1 / 2 < (p.px x (y + 1)).z) (h11 : 1 / 2 < (p.px (x + 1) (y + 1)).z) :
    ∃ e, evaluateWith (setNormalF 0 m) id (addRgb p) is = some e ∧ e.isect.normalS = is.normalS := by
  obtain ⟨e, he, ⟨h1, k, hk, h2⟩, h3, h4⟩ := C131_texture_partial (setNormalF 0 m) id p is hn hf hb h00 h10 h01 h11
  refine ⟨e, he, ?_⟩
  have e1 : ∃ c : ℝ, e.isect.normalS = c * is.normalS := by
    refine ⟨k * (blend s t (unit (direction (p.px x y))) (unit (direction (p.px (x + 1) y)))
        (unit (direction (p.px x (y + 1)))) (unit (direction (p.px (x + 1) (y + 1))))).z, h2.trans ?_⟩
    ext <;> simp only [tilt, setNormalF, hmul_x, hmul_y, hmul_z, add_x, add_y, add_z] <;> ring
  obtain ⟨c, hc⟩ := e1
  have hc1 : c = 1 := by
    rw [hc, dot_smul_left, hf.nn] at h3
    rw [hc, dot_smul_left, dot_smul_right, hf.nn] at h1
    nlinarith
  rw [hc, hc1]; ext <;> simp

/-! ### What does not hold -/

/-- **C131, the promise in full**: every picture with colours between zero and one gives a unit normal everywhere. -/
def C131_full : Prop := ∀ (p : Picture) (k : Kind) (is : Isect 1), 0 < p.w → 0 < p.h → k ≠ .null →
  Orthonormal is.tangent is.bitangent is.normalS →
  (∀ x y, 0 ≤ (p.px x y).x ∧ (p.px x y).x ≤ 1 ∧ 0 ≤ (p.px x y).y ∧ (p.px x y).y ≤ 1 ∧ 0 ≤ (p.px x y).z ∧ (p.px x y).z ≤ 1) →
  ∃ e, evaluateWith (new k (sceneDefaults 0)) 9 (addRgb p) is = some e ∧ dot e.isect.normalS e.isect.normalS = 1

/-- **C131.**  A mid-grey pixel (one half in every channel) makes everything around it NaN: between it and its neighbours, and
at the centres of the pixels to its left and above, where its weight is zero. -/
theorem C131_grey {n : ℕ} (m : Mat n) (id : ℕ) (p : Picture) (is : Isect n) {x y : ℕ} {s t : ℝ} (hn : m.evalNormal = true)
    (ht : is.tangent ≠ V3.zero) (hb : Between p is x y s t)
    (hg : direction (p.px x y) = V3.zero ∨ direction (p.px (x + 1) y) = V3.zero ∨ direction (p.px x (y + 1)) = V3.zero ∨
      direction (p.px (x + 1) (y + 1)) = V3.zero) : evaluateWith m id (addRgb p) is = none := by
  have hs : sample (addVec p) is.u is.v = none := by
    obtain ⟨k, hk⟩ := hb.u
    obtain ⟨l, hl⟩ := hb.v
    obtain ⟨p1, p2, p3, p4⟩ := axis_between hb.right hb.s0 hb.s1
    obtain ⟨q1, q2, q3, q4⟩ := axis_between hb.below hb.t0 hb.t1
    have e1 : min ((x : ℤ) + 1) ((p.w : ℤ) - 1) = x + 1 := min_eq_left (by have := hb.right; omega)
    have e2 : min ((y : ℤ) + 1) ((p.h : ℤ) - 1) = y + 1 := min_eq_left (by have := hb.below; omega)
    have e0 : ¬ (addVec p).w * (addVec p).h = 0 := by
      have h1 := hb.right; have h2 := hb.below
      exact Nat.mul_ne_zero (by simp only [addVec]; omega) (by simp only [addVec]; omega)
    rw [sample, if_neg e0]
    simp only [hk, hl, wrap_rep_frac k p1 p2, wrap_rep_frac l q1 q2, Option.bind_eq_bind, Option.bind_some, addVec, mixAt,
      Image.bilinearSetup, p3, q3, e1, e2]
    rcases hg with h | h | h | h <;> rw [decode_grey h]
    · rfl
    · cases decode (p.px x y) <;> rfl
    · cases decode (p.px x y) <;> cases decode (p.px (x + 1) y) <;> rfl
    · cases decode (p.px x y) <;> cases decode (p.px (x + 1) y) <;> cases decode (p.px x (y + 1)) <;> rfl
  rw [evaluateWith, if_pos ⟨hn, ht⟩, addRgb_eq, hs]; rfl

/-- **C131 (violated).** -/
theorem C131_violated : ¬ C131_full := by
  intro h
  have hd : direction (⟨1 / 2, 1 / 2, 1 / 2⟩ : V3) = V3.zero := by ext <;> simp [direction, V3.zero]
  obtain ⟨e, he, -⟩ := h ⟨2, 2, fun x _ => if x = 1 then ⟨1 / 2, 1 / 2, 1 / 2⟩ else ⟨1 / 2, 1 / 2, 1⟩⟩ .lambertian (flatSurface 0 0) (by norm_num) (by norm_num)
    (by simp) (flat_orthonormal _ _) (by intro x y; simp only; split_ifs <;> norm_num)
  rw [C131_grey (x := 0) (y := 0) (s := 0) (t := 0) _ _ _ _ rfl (by intro e; have := congrArg V3.x e; simp [flatSurface, V3.zero] at this)
    ⟨by norm_num, by norm_num, by norm_num, by norm_num, by norm_num, by norm_num,
      ⟨0, by simp [flatSurface]⟩, ⟨0, by simp [flatSurface]⟩⟩ (Or.inr (Or.inl (by simpa using hd)))] at he
  simp at he

/-- **C131 (violated also without grey).**  Two opposite normals meet in a point without a normal. -/
theorem C131_violated_opposite : evaluateWith (new .lambertian (sceneDefaults 0)) 9
    (addRgb ⟨2, 2, fun x _ => if x = 1 then ⟨0, 1 / 2, 1 / 2⟩ else ⟨1, 1 / 2, 1 / 2⟩⟩) (flatSurface (1 / 2) 0) = none := by
  have d1 : direction (⟨0, 1 / 2, 1 / 2⟩ : V3) = ⟨-1, 0, 0⟩ := by ext <;> simp [direction]
  have d2 : direction (⟨1, 1 / 2, 1 / 2⟩ : V3) = ⟨1, 0, 0⟩ := by ext <;> simp [direction]; norm_num
  have n1 : decode (⟨0, 1 / 2, 1 / 2⟩ : V3) = some ⟨-1, 0, 0⟩ := by
    rw [decode_direction (by rw [d1]; intro e; have := congrArg V3.x e; simp [V3.zero] at this), d1]
    congr 1; ext <;> simp [unit, len, dot]
  have n2 : decode (⟨1, 1 / 2, 1 / 2⟩ : V3) = some ⟨1, 0, 0⟩ := by
    rw [decode_direction (by rw [d2]; intro e; have := congrArg V3.x e; simp [V3.zero] at this), d2]
    congr 1; ext <;> simp [unit, len, dot]
  have hs := sample_between (n := 1) (p := ⟨2, 2, fun x _ => if x = 1 then ⟨0, 1 / 2, 1 / 2⟩ else ⟨1, 1 / 2, 1 / 2⟩⟩) (is := flatSurface (1 / 2) 0)
    (x := 0) (y := 0) (s := 1 / 2) (t := 0) (a := ⟨1, 0, 0⟩) (b := ⟨-1, 0, 0⟩) (c := ⟨1, 0, 0⟩) (d := ⟨-1, 0, 0⟩)
    ⟨by norm_num, by norm_num, by norm_num, by norm_num, by norm_num, by norm_num,
      ⟨0, by simp [flatSurface]; norm_num⟩, ⟨0, by simp [flatSurface]⟩⟩ (by simpa using n2) (by simpa using n1) (by simpa using n2) (by simpa using n1)
  have e1 : blend (1 / 2) 0 ⟨1, 0, 0⟩ ⟨-1, 0, 0⟩ ⟨1, 0, 0⟩ ⟨-1, 0, 0⟩ = V3.zero := by ext <;> simp [blend, V3.zero]; norm_num
  rw [evaluateWith, if_pos ⟨rfl, by intro e; have := congrArg V3.x e; simp [flatSurface, V3.zero] at this⟩, addRgb_eq, hs, e1]
  rw [Option.bind_some, evaluate, shadingNormal, if_pos (by rfl : (setNormal _ (new (n := 1) .lambertian (sceneDefaults 0))).evalNormal = true), if_pos (by intro e; have := congrArg V3.x e; simp [flatSurface, V3.zero] at this)]
  simp [setNormal, perturb, V3.normalize?, dot, V3.zero]

/-- **C131.**  No colour with eight bits per channel is flat: whatever the three bytes of a picture of one colour are, the
normal it gives differs from the one of the surface (unless the factor is zero). -/
theorem C131_byte {n : ℕ} (m : Mat n) (id : ℕ) (p : Picture) (is : Isect n) {x y : ℕ} (hn : m.evalNormal = true) (hf0 : m.normalF ≠ 0)
    (hf : Orthonormal is.tangent is.bitangent is.normalS) (hb : Between p is x y 0 0) {r g b : ℕ} (hb2 : 127 < b)
    (hp : ∀ x y, p.px x y = ⟨r / 255, g / 255, b / 255⟩) :
    ∃ e, evaluateWith m id (addRgb p) is = some e ∧ e.isect.normalS ≠ is.normalS := by
  have hz : ∀ x y, 1 / 2 < (p.px x y).z := by
    intro x y
    have : (128 : ℝ) ≤ b := by exact_mod_cast hb2
    rw [hp, lt_div_iff₀ (by norm_num)]; linarith
  obtain ⟨e, he, h1, k, hk, h2⟩ := C131_texel_partial m id p is hn hf hb (hz _ _) (hz _ _) (hz _ _) (hz _ _)
  refine ⟨e, he, fun h => ?_⟩
  have e1 : dot e.isect.normalS is.tangent = k * (m.normalF * (direction (p.px x y)).x) := by
    have a1 := hf.tt; have a2 := hf.tb; have a3 := hf.tn
    have : dot e.isect.normalS is.tangent = k * (m.normalF * (direction (p.px x y)).x * dot is.tangent is.tangent +
        m.normalF * (direction (p.px x y)).y * dot is.tangent is.bitangent + (direction (p.px x y)).z * dot is.tangent is.normalS) := by
      rw [h2]; simp [tilt, dot]; ring
    rw [this, a1, a2, a3]; ring
  rw [h, dot_comm, hf.tn] at e1
  have hx : (direction (p.px x y)).x ≠ 0 := by
    rw [hp]
    simp only [direction]
    intro h0
    have h5 : 2 * (r : ℝ) = 255 := by linarith
    have h6 : 2 * r = 255 := by exact_mod_cast h5
    omega
  have := mul_ne_zero hk.ne' (mul_ne_zero hf0 hx)
  exact this e1.symm

example : ∃ e, evaluateWith (new .lambertian (sceneDefaults 0)) 9 (addRgb ⟨2, 2, fun _ _ => ⟨(128 : ℕ) / 255, (128 : ℕ) / 255, (255 : ℕ) / 255⟩⟩) (flatSurface 0 0) = some e ∧
    e.isect.normalS ≠ (flatSurface 0 0).normalS :=
  C131_byte (x := 0) (y := 0) (r := 128) (g := 128) (b := 255) _ _ _ _ rfl (by simp [new, setBsdf]) (flat_orthonormal _ _)
    ⟨by norm_num, by norm_num, by norm_num, by norm_num, by norm_num, by norm_num,
      ⟨0, by simp [flatSurface]⟩, ⟨0, by simp [flatSurface]⟩⟩ (by norm_num) (by intro x y; rfl)

end
end Huira.NormalMap
