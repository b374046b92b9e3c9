import Verif.ImageIO.Fits
import Mathlib.Tactic.Linarith
import Mathlib.Tactic.NormNum
import Mathlib.Tactic.Positivity
import Mathlib.Tactic.FieldSimp
/-! # C26: FITS round trip -/
set_option linter.unusedSimpArgs false
namespace Huira.ImageIO.Fits

theorem writeAll_spec : ∀ (ws : List (Nat × ℚ)) (v : List ℚ), (∀ w ∈ ws, w.1 < v.length) →
    (∀ w ∈ ws, ∀ w' ∈ ws, w.1 = w'.1 → w.2 = w'.2) →
    ∃ r, writeAll ws v = .ok r ∧ r.length = v.length ∧ (∀ w ∈ ws, r[w.1]? = some w.2)  ∧
      (∀ i, (∀ w ∈ ws, w.1 ≠ i) → r[i]? = v[i]?)
  | [], v, _, _ => ⟨v, rfl, rfl, by simp, fun _ _ => rfl⟩
  | (i, b) :: ws, v, h1, h2 => by
    have hi : i < v.length := h1 (i, b) (List.mem_cons_self ..)
    unfold writeAll
    rw [if_pos hi]
    obtain ⟨r, hr, hl, hm, ho⟩ := writeAll_spec ws (v.set i b)
      (fun w hw => by rw [List.length_set]; exact h1 w (List.mem_cons_of_mem _ hw))
      (fun w hw w' hw' => h2 w (List.mem_cons_of_mem _ hw) w' (List.mem_cons_of_mem _ hw'))
    refine ⟨r, hr, by rw [hl, List.length_set], ?_, ?_⟩
    · intro w hmem
      by_cases hin : ∃ w' ∈ ws, w'.1 = w.1
      · obtain ⟨w', hw', he⟩ := hin
        rw [← he, hm w' hw', h2 w hmem w' (List.mem_cons_of_mem _ hw') he.symm]
      · rcases List.mem_cons.1 hmem with rfl | hws
        · simp only
          rw [ho i (fun w hw he => hin ⟨w, hw, he⟩), List.getElem?_set_self hi]
        · exact absurd ⟨w, hws, rfl⟩ hin
    · intro j hj
      rw [ho j (fun w hw => hj w (List.mem_cons_of_mem _ hw)), List.getElem?_set_ne]
      exact hj (i, b) (List.mem_cons_self ..)

/-- A well-formed image: as many pixels as its dimensions say. -/
def Img.WF (im : Img) : Prop := 0 < im.w ∧ 0 < im.h ∧ im.px.length = im.w * im.h
/-- The pixel at `(x, y)`. -/
def Img.at (im : Img) (x y : Nat) : Option ℚ := im.px[y * im.w + x]?

/-- Every pixel is an exact ADC level `k / max`. -/
def Img.Levels (im : Img) (mx : ℚ) : Prop := ∀ p ∈ im.px, ∃ k : ℕ, (k : ℚ) ≤ mx ∧ p = k / mx

/-- CFITSIO keeps integers. -/
def Exact (store : ℚ → ℚ) : Prop := ∀ k : ℕ, store k = k

/-- C26 in full: any integer format with any sensor depth that it can hold, whatever the header. -/
def C26_full : Prop := ∀ (store : ℚ → ℚ) (bitDepth : Int) (us : Option ℚ) (im : Img) (f : File), Exact store →
  bitDepth ∈ [(8 : Int), 16, 32] → im.WF → ((im.sensorBits : Int) ≤ bitDepth) → im.Levels (adcMax bitDepth im.sensorBits) →
  write store bitDepth us im = .ok f → ∀ x y, x < im.w → y < im.h → readPixel f x y = im.at x y

/-- The file of any well-formed image: `(x, y)` is stored in row `h-1-y`. -/
theorem write_ok (store : ℚ → ℚ) (bitDepth : Int) (us : Option ℚ) (im : Img) (hwf : im.WF)
    (hb : bitDepth ∈ [(8 : Int), 16, 32, -32, -64]) :
    ∃ data, write store bitDepth us im = .ok ⟨bitDepth, im.w, im.h,
        if 0 < bitDepth ∧ us = none then some (adcMax bitDepth im.sensorBits) else us, data⟩ ∧
      ∀ x y, x < im.w → y < im.h → ∃ v, im.at x y = some v ∧
        data[(im.h - 1 - y) * im.w + x]? =
          some (if 0 < bitDepth then store (encodePixel bitDepth im.sensorBits v) else encodePixel bitDepth im.sensorBits v) := by
  obtain ⟨hw, hh, hlen⟩ := hwf
  have hidx : ∀ p ∈ grid im.w im.h, p.2 * im.w + p.1 < im.px.length := by
    intro p hp
    obtain ⟨hx, hy⟩ := (mem_grid _ _ p).1 hp
    have := pixel_index_lt im.w im.h 1 p.1 p.2 0 hx hy (by omega)
    rw [hlen]; omega
  let g : Nat × Nat → Nat × ℚ := fun p =>
    ((im.h - 1 - p.2) * im.w + p.1, encodePixel bitDepth im.sensorBits ((im.px[p.2 * im.w + p.1]?).getD 0))
  have hm : mapRes (fun p : Nat × Nat => readAt im.px (p.2 * im.w + p.1) >>= fun v =>
      .ok ((im.h - 1 - p.2) * im.w + p.1, encodePixel bitDepth im.sensorBits v)) (grid im.w im.h) =
      .ok ((grid im.w im.h).map g) := by
    apply mapRes_ok
    intro p hp
    have := hidx p hp
    unfold readAt
    rw [List.getElem?_eq_getElem this]
    simp only [Res.ok_bind, g]
    rw [List.getElem?_eq_getElem this]; rfl
  obtain ⟨r, hr, hrl, hv, _⟩ := writeAll_spec ((grid im.w im.h).map g) (List.replicate (im.w * im.h) 0)
    (fun q hq => by
      obtain ⟨p, hp, rfl⟩ := List.mem_map.1 hq
      obtain ⟨hx, hy⟩ := (mem_grid _ _ p).1 hp
      have := pixel_index_lt im.w im.h 1 p.1 (im.h - 1 - p.2) 0 hx (by omega) (by omega)
      rw [List.length_replicate]
      simp only [g]; omega)
    (fun q hq q' hq' he => by
      obtain ⟨p, hp, rfl⟩ := List.mem_map.1 hq
      obtain ⟨p', hp', rfl⟩ := List.mem_map.1 hq'
      obtain ⟨hx, hy⟩ := (mem_grid _ _ p).1 hp
      obtain ⟨hx', hy'⟩ := (mem_grid _ _ p').1 hp'
      obtain ⟨e1, e2, _⟩ := pixel_index_inj im.w 1 p.1 (im.h - 1 - p.2) 0 p'.1 (im.h - 1 - p'.2) 0 hx hx' (by omega)
        (by omega) (by simp only [g] at he; omega)
      have e2' : p.2 = p'.2 := by omega
      have : p = p' := Prod.ext e1 e2'
      rw [this])
  refine ⟨if 0 < bitDepth then r.map store else r, ?_, ?_⟩
  · unfold write
    rw [if_neg (by omega), if_neg (not_not.2 hb), hm, Res.ok_bind, hr, Res.ok_bind]
  · intro x y hx hy
    have hi := hidx (x, y) ((mem_grid _ _ (x, y)).2 ⟨hx, hy⟩)
    refine ⟨im.px[y * im.w + x], List.getElem?_eq_getElem hi, ?_⟩
    have := hv (g (x, y)) (List.mem_map.2 ⟨(x, y), (mem_grid _ _ (x, y)).2 ⟨hx, hy⟩, rfl⟩)
    simp only [g, List.getElem?_eq_getElem hi, Option.getD_some] at this
    by_cases hpos : 0 < bitDepth
    · rw [if_pos hpos, if_pos hpos, List.getElem?_map, this]; rfl
    · rw [if_neg hpos, if_neg hpos, this]

theorem divisor_sat (b : Int) (w h : Nat) (s : ℚ) (d : List ℚ) (hs : 0 < s) : divisor ⟨b, w, h, some s, d⟩ = s := by
  unfold divisor; simp only [if_pos hs]

theorem adc_pos (b : Int) (s : Nat) : 0 < adcMax b s := by
  unfold adcMax
  split
  · rename_i h
    have : (2 : ℚ) ^ 1 ≤ 2 ^ s := pow_le_pow_right₀ (by norm_num) h
    linarith
  · unfold bitpixMax
    split
    · norm_num
    split
    · norm_num
    split <;> norm_num

/-- **C26 (partial).** 16- and 32-bit integer FITS with a sensor depth the format's positive range can hold (at most
15 or 31 bits, or unset) and no SATURATE supplied by the user: every image of ADC levels is read back exactly, at the
same coordinates, for every size. -/
theorem C26_integer_partial (store : ℚ → ℚ) (hst : Exact store) (bitDepth : Int) (im : Img) (hwf : im.WF)
    (hb : bitDepth = 16 ∧ im.sensorBits ≤ 15 ∨ bitDepth = 32 ∧ im.sensorBits ≤ 31)
    (hlev : im.Levels (adcMax bitDepth im.sensorBits)) :
    ∃ f, write store bitDepth none im = .ok f ∧ ∀ x y, x < im.w → y < im.h → readPixel f x y = im.at x y := by
  have hmem : bitDepth ∈ [(8 : Int), 16, 32, -32, -64] := by rcases hb with ⟨rfl, _⟩ | ⟨rfl, _⟩ <;> simp
  have hpos : 0 < bitDepth := by rcases hb with ⟨rfl, _⟩ | ⟨rfl, _⟩ <;> norm_num
  have hfit : adcMax bitDepth im.sensorBits ≤ bitpixMax bitDepth := by
    unfold adcMax
    split
    · rcases hb with ⟨rfl, h⟩ | ⟨rfl, h⟩
      · have := pow_le_pow_right₀ (show (1 : ℚ) ≤ 2 by norm_num) h
        norm_num [bitpixMax] at this ⊢; linarith
      · have := pow_le_pow_right₀ (show (1 : ℚ) ≤ 2 by norm_num) h
        norm_num [bitpixMax] at this ⊢; linarith
    · exact le_refl _
  obtain ⟨data, hd, hp⟩ := write_ok store bitDepth none im hwf hmem
  rw [if_pos ⟨hpos, rfl⟩] at hd
  refine ⟨_, hd, ?_⟩
  intro x y hx hy
  obtain ⟨v, hv, hdat⟩ := hp x y hx hy
  rw [hv]
  have hm := adc_pos bitDepth im.sensorBits
  obtain ⟨k, hk, rfl⟩ := hlev v (by
    unfold Img.at at hv
    exact List.mem_of_getElem? hv)
  unfold readPixel
  simp only
  rw [hdat, if_pos hpos]
  simp only [Option.map_some, if_pos hpos]
  rw [divisor_sat _ _ _ _ _ hm]
  have henc : encodePixel bitDepth im.sensorBits ((k : ℚ) / adcMax bitDepth im.sensorBits) = k := by
    unfold encodePixel clamp
    have h8 : ¬ bitDepth = 8 := by rcases hb with ⟨rfl, _⟩ | ⟨rfl, _⟩ <;> norm_num
    rw [if_pos hpos, if_neg h8, div_mul_cancel₀ _ hm.ne']
    have : (0 : ℚ) ≤ k := Nat.cast_nonneg k
    rw [if_neg (by linarith), if_neg (by linarith)]
  rw [henc, hst k, mul_one_div]

/-- **C26 (partial).** Floating point FITS returns every finite image unchanged, at the same coordinates. -/
theorem C26_float_partial (store : ℚ → ℚ) (bitDepth : Int) (us : Option ℚ) (im : Img) (hwf : im.WF)
    (hb : bitDepth = -32 ∨ bitDepth = -64) :
    ∃ f, write store bitDepth us im = .ok f ∧ ∀ x y, x < im.w → y < im.h → readPixel f x y = im.at x y := by
  have hmem : bitDepth ∈ [(8 : Int), 16, 32, -32, -64] := by rcases hb with rfl | rfl <;> simp
  have hneg : ¬ 0 < bitDepth := by rcases hb with rfl | rfl <;> norm_num
  obtain ⟨data, hd, hp⟩ := write_ok store bitDepth us im hwf hmem
  refine ⟨_, hd, ?_⟩
  intro x y hx hy
  obtain ⟨v, hv, hdat⟩ := hp x y hx hy
  rw [hv]
  unfold readPixel
  simp only
  rw [hdat, if_neg hneg]
  simp [hneg, encodePixel]

/-- **C26 (partial).** 8-bit FITS: every level except 0 is read back exactly (0 becomes 1/255: the byte 0 is reserved). -/
theorem C26_bit8_partial (store : ℚ → ℚ) (hst : Exact store) (im : Img) (hwf : im.WF) (hs : im.sensorBits ≤ 8)
    (hlev : im.Levels (adcMax 8 im.sensorBits)) :
    ∃ f, write store 8 none im = .ok f ∧ ∀ x y, x < im.w → y < im.h → ∀ v, im.at x y = some v →
      readPixel f x y = some (if v = 0 then 1 / adcMax 8 im.sensorBits else v) := by
  have hfit : adcMax 8 im.sensorBits ≤ 255 := by
    unfold adcMax
    split
    · have := pow_le_pow_right₀ (show (1 : ℚ) ≤ 2 by norm_num) hs
      norm_num at this ⊢; linarith
    · norm_num [bitpixMax]
  obtain ⟨data, hd, hp⟩ := write_ok store 8 none im hwf (by simp)
  rw [if_pos ⟨by norm_num, rfl⟩] at hd
  refine ⟨_, hd, ?_⟩
  intro x y hx hy v hv'
  obtain ⟨v', hv, hdat⟩ := hp x y hx hy
  rw [hv'] at hv
  injection hv with hv
  subst hv
  have hm := adc_pos 8 im.sensorBits
  obtain ⟨k, hk, rfl⟩ := hlev v (by unfold Img.at at hv'; exact List.mem_of_getElem? hv')
  unfold readPixel
  simp only
  rw [hdat, if_pos (by norm_num)]
  simp only [Option.map_some, show (0 : Int) < 8 from by norm_num, if_true]
  rw [divisor_sat _ _ _ _ _ hm]
  have henc : encodePixel 8 im.sensorBits ((k : ℚ) / adcMax 8 im.sensorBits) = ((if k = 0 then 1 else k : ℕ) : ℚ) := by
    unfold encodePixel clamp
    rw [if_pos (by norm_num), if_pos rfl, div_mul_cancel₀ _ hm.ne']
    by_cases hk0 : k = 0
    · subst hk0; norm_num
    · have : (1 : ℚ) ≤ k := by exact_mod_cast Nat.one_le_iff_ne_zero.2 hk0
      rw [if_neg (by linarith), if_neg (by unfold bitpixMax; rw [if_pos rfl]; linarith), if_neg hk0]
  rw [henc, hst]
  by_cases hk0 : k = 0
  · subst hk0; simp
  · rw [if_neg hk0, if_neg (by
      intro h
      rw [div_eq_zero_iff] at h
      rcases h with h | h
      · exact hk0 (by exact_mod_cast h)
      · exact hm.ne' h), mul_one_div]

/-- A one-pixel image. -/
def one (v : ℚ) (bits : Nat) : Img := ⟨1, 1, [v], bits⟩

theorem one_read (store : ℚ → ℚ) (bitDepth : Int) (us : Option ℚ) (v : ℚ) (bits : Nat)
    (hb : bitDepth ∈ [(8 : Int), 16, 32, -32, -64]) :
    ∃ f, write store bitDepth us (one v bits) = .ok f ∧ f.bitpix = bitDepth ∧
      f.saturate = (if 0 < bitDepth ∧ us = none then some (adcMax bitDepth bits) else us) ∧
      (0 < bitDepth → readPixel f 0 0 = some (store (encodePixel bitDepth bits v) * (1 / divisor f))) := by
  obtain ⟨data, hd, hp⟩ := write_ok store bitDepth us (one v bits) ⟨by simp [one], by simp [one], by simp [one]⟩ hb
  obtain ⟨v', hv, hdat⟩ := hp 0 0 (by simp [one]) (by simp [one])
  have : v' = v := by
    have h0 : (one v bits).at 0 0 = some v := rfl
    rw [h0] at hv; injection hv with hv; exact hv.symm
  subst this
  refine ⟨_, hd, rfl, rfl, fun hpos => ?_⟩
  unfold readPixel
  simp only
  rw [hdat, if_pos hpos]
  simp [hpos, one]

/-- **C26 (violated).** A 16-bit sensor written as BITPIX 16: full scale (1.0, level 65535) is clipped to 32767 and
comes back as 32767/65535. -/
theorem C26_violated : ¬ C26_full := by
  intro h
  obtain ⟨f, hf, hb, hs, hr⟩ := one_read (fun q => q) 16 none 1 16 (by simp)
  have hl : (one 1 16).Levels (adcMax 16 16) := by
    intro p hp
    simp [one] at hp
    subst hp
    exact ⟨65535, by norm_num [adcMax], by norm_num [adcMax]⟩
  have := h (fun q => q) 16 none (one 1 16) f (fun _ => rfl) (by simp) ⟨by simp [one], by simp [one], by simp [one]⟩
    (by simp [one]) hl hf 0 0 (by simp [one]) (by simp [one])
  rw [hr (by norm_num)] at this
  have hd : divisor f = 65535 := by
    unfold divisor
    rw [hs, if_pos (by simp)]
    norm_num [adcMax]
  rw [hd] at this
  have e : (one 1 16).at 0 0 = some 1 := rfl
  rw [e] at this
  norm_num [encodePixel, clamp, adcMax, bitpixMax] at this

/-- **C26 (violated).** Black (level 0) written as 8-bit FITS comes back as 1/255. -/
theorem C26_black8 : ∃ f, write (fun q => q) 8 none (one 0 0) = .ok f ∧ readPixel f 0 0 = some (1 / 255) := by
  obtain ⟨f, hf, hb, hs, hr⟩ := one_read (fun q => q) 8 none 0 0 (by simp)
  refine ⟨f, hf, ?_⟩
  rw [hr (by norm_num)]
  have hd : divisor f = 255 := by
    unfold divisor
    rw [hs, if_pos (by simp)]
    norm_num [adcMax, bitpixMax]
  rw [hd]
  norm_num [encodePixel, clamp, adcMax, bitpixMax]

/-- **C26 (violated).** A SATURATE value in the user's metadata (here 1000 adu) changes the pixel values read back:
0.5 at 12 bits becomes 2.0475 - the writer scales by the ADC range, the reader by SATURATE. -/
theorem C26_user_saturate : ∃ f, write (fun q => q) 16 (some 1000) (one (2000 / 4095) 12) = .ok f ∧
    readPixel f 0 0 = some 2 := by
  obtain ⟨f, hf, hb, hs, hr⟩ := one_read (fun q => q) 16 (some 1000) (2000 / 4095) 12 (by simp)
  refine ⟨f, hf, ?_⟩
  rw [hr (by norm_num)]
  have hd : divisor f = 1000 := by
    unfold divisor
    rw [hs, if_neg (by simp)]
    norm_num
  rw [hd]
  norm_num [encodePixel, clamp, adcMax, bitpixMax]

/-- Non-vacuity: a 12-bit 2x1 image satisfies the hypotheses of the 16-bit theorem. -/
example : Img.WF ⟨2, 1, [0, 4095 / 4095], 12⟩ ∧ Img.Levels ⟨2, 1, [0, 4095 / 4095], 12⟩ (adcMax 16 12) := by
  refine ⟨⟨by norm_num, by norm_num, rfl⟩, ?_⟩
  intro p hp
  simp at hp
  rcases hp with rfl | rfl
  · exact ⟨0, by norm_num [adcMax], by norm_num⟩
  · exact ⟨4095, by norm_num [adcMax], by norm_num [adcMax]⟩

end Huira.ImageIO.Fits
