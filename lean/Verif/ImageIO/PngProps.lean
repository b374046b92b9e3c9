import Verif.ImageIO.Png
import Verif.ImageIO.ConvertProps
import Mathlib.Tactic.FinCases
import Mathlib.Tactic.IntervalCases
/-!
# PNG: what is read and written (C104)
-/
set_option linter.unusedSimpArgs false
set_option linter.unusedVariables false
namespace Huira.ImageIO.Png
open Huira.Num Huira.ImageIO Huira.ImageIO.Convert

/-! ## Specification -/

/-- A file allowed by the PNG specification. -/
structure Valid (f : File) : Prop where
  w_pos : 0 < f.w
  h_pos : 0 < f.h
  form : (f.ct = 0 ∧ f.depth ∈ [1, 2, 4, 8, 16]) ∨ (f.ct = 2 ∧ f.depth ∈ [8, 16]) ∨ (f.ct = 3 ∧ f.depth ∈ [1, 2, 4, 8]) ∨
    (f.ct = 4 ∧ f.depth ∈ [8, 16]) ∨ (f.ct = 6 ∧ f.depth ∈ [8, 16])
  samples : ∀ x y c, x < f.w → y < f.h → c < channelsOf f.ct → f.sample x y c < 2 ^ f.depth
  palette : f.ct = 3 → (∀ e ∈ f.palette, ∃ r g b, e = [r, g, b] ∧ r < 256 ∧ g < 256 ∧ b < 256) ∧
    ∀ x y, x < f.w → y < f.h → f.sample x y 0 < f.palette.length
  trns : f.ct = 4 ∨ f.ct = 6 → f.trns = none
  trnsPal : f.ct = 3 → ∀ t, f.trns = some t → ∀ v ∈ t, v < 256
  gama : ∀ n, f.gama = some n → 0 < n

/-- The file has transparency. -/
def HasAlpha (f : File) : Prop := f.trns.isSome = true ∨ f.ct = 4 ∨ f.ct = 6

/-- The file has no colour. -/
def IsGrey (f : File) : Prop := f.ct = 0 ∨ f.ct = 4

/-- Red, green, blue, opacity of a pixel, each in [0, 1], as the PNG specification defines them. -/
def shown (f : File) (x y : Nat) : ℚ × ℚ × ℚ × ℚ :=
  let m : ℚ := 2 ^ f.depth - 1
  let s := fun c => f.sample x y c
  if f.ct = 0 then (s 0 / m, s 0 / m, s 0 / m, if f.trns = some [s 0] then 0 else 1)
  else if f.ct = 2 then (s 0 / m, s 1 / m, s 2 / m, if f.trns = some [s 0, s 1, s 2] then 0 else 1)
  else if f.ct = 3 then
    match f.palette[s 0]? with
    | some [r, g, b] => (r / 255, g / 255, b / 255, (((f.trns.getD [])[s 0]?).getD 255 : Nat) / 255)
    | _ => (0, 0, 0, 1)
  else if f.ct = 4 then (s 0 / m, s 0 / m, s 0 / m, s 1 / m)
  else (s 0 / m, s 1 / m, s 2 / m, s 3 / m)

/-! ## Grids -/

theorem grid_length (w h : Nat) : (grid w h).length = h * w := by
  induction h with
  | zero => simp [grid]
  | succ h ih =>
    have : grid w (h + 1) = grid w h ++ (List.range w).map fun x => (x, h) := by
      simp [grid, List.range_succ, List.flatMap_append]
    rw [this, List.length_append, ih]; simp [Nat.succ_mul]

theorem grid_get (w h x y : Nat) (hx : x < w) (hy : y < h) : (grid w h)[y * w + x]? = some (x, y) := by
  induction h with
  | zero => omega
  | succ h ih =>
    have e : grid w (h + 1) = grid w h ++ (List.range w).map fun x => (x, h) := by
      simp [grid, List.range_succ, List.flatMap_append]
    rw [e]
    by_cases hyh : y < h
    · rw [List.getElem?_append_left, ih hyh]
      rw [grid_length]
      have : (y + 1) * w ≤ h * w := Nat.mul_le_mul_right _ hyh
      rw [Nat.succ_mul] at this; omega
    · have : y = h := by omega
      subst this
      rw [List.getElem?_append_right (by rw [grid_length]; omega), grid_length]
      simp [hx]

/-! ## The rows delivered -/

/-- The largest level of the rows delivered. -/
def top (f : File) : Nat := if f.depth = 16 then 65535 else 255

theorem out_depth (f : File) (h : Valid f) : (outFormat f (asked f)).2 = if f.depth = 16 then 16 else 8 := by
  obtain ⟨ct, d, hct, hd⟩ : ∃ ct d, f.ct = ct ∧ f.depth = d := ⟨_, _, rfl, rfl⟩
  have hf := h.form
  rw [hct, hd] at hf
  cases ht : f.trns with
  | none =>
    rcases hf with ⟨rfl, hm⟩ | ⟨rfl, hm⟩ | ⟨rfl, hm⟩ | ⟨rfl, hm⟩ | ⟨rfl, hm⟩ <;> fin_cases hm <;>
      simp [outFormat, asked, Asked.expand, Asked.expandTrns, hct, hd, ht]
  | some t =>
    rcases hf with ⟨rfl, hm⟩ | ⟨rfl, hm⟩ | ⟨rfl, hm⟩ | ⟨rfl, hm⟩ | ⟨rfl, hm⟩ <;> fin_cases hm <;>
      simp [outFormat, asked, Asked.expand, Asked.expandTrns, hct, hd, ht]

open scoped Classical in
theorem out_ct (f : File) (h : Valid f) : (outFormat f (asked f)).1 =
    (if IsGrey f then 0 else 2) + (if HasAlpha f then 4 else 0) := by
  obtain ⟨ct, d, hct, hd⟩ : ∃ ct d, f.ct = ct ∧ f.depth = d := ⟨_, _, rfl, rfl⟩
  have hf := h.form
  have hn := h.trns
  rw [hct, hd] at hf
  cases ht : f.trns with
  | none =>
    rcases hf with ⟨rfl, hm⟩ | ⟨rfl, hm⟩ | ⟨rfl, hm⟩ | ⟨rfl, hm⟩ | ⟨rfl, hm⟩ <;> fin_cases hm <;>
      simp [outFormat, asked, Asked.expand, Asked.expandTrns, hct, hd, ht, IsGrey, HasAlpha]
  | some t =>
    rw [ht, hct] at hn
    rcases hf with ⟨rfl, hm⟩ | ⟨rfl, hm⟩ | ⟨rfl, hm⟩ | ⟨rfl, hm⟩ | ⟨rfl, hm⟩ <;>
      (try (exfalso; simp at hn; done)) <;> fin_cases hm <;>
      simp [outFormat, asked, Asked.expand, Asked.expandTrns, hct, hd, ht, IsGrey, HasAlpha]

/-- The number of channels delivered. -/
def chans (f : File) : Nat := channelsOf (outFormat f (asked f)).1

open scoped Classical in
theorem chans_eq (f : File) (h : Valid f) : chans f = (if IsGrey f then 1 else 3) + (if HasAlpha f then 1 else 0) := by
  unfold chans
  rw [out_ct f h]
  by_cases h1 : IsGrey f <;> by_cases h2 : HasAlpha f <;> simp [h1, h2, channelsOf]

theorem channelCount_eq (f : File) (h : Valid f) : channelCount (outFormat f (asked f)).1 = chans f := by
  classical
  rw [chans_eq f h, out_ct f h]
  by_cases h1 : IsGrey f <;> by_cases h2 : HasAlpha f <;> simp [h1, h2, channelCount]

/-- The value of channel `c` of the delivered pixel according to the specification. -/
def want (f : File) (x y c : Nat) : ℚ :=
  let p := shown f x y
  if f.ct = 0 ∨ f.ct = 4 then (if c = 0 then p.1 else p.2.2.2)
  else if c = 0 then p.1 else if c = 1 then p.2.1 else if c = 2 then p.2.2.1 else p.2.2.2

/-- The level delivered for a stored sample of a file without palette. -/
theorem level_ok (f : File) (hd : f.depth ∈ [1, 2, 4, 8, 16]) (s : Nat) (hs : s < 2 ^ f.depth) :
    (if f.depth < 8 then s * (255 / (2 ^ f.depth - 1)) else s) ≤ top f ∧
    ((if f.depth < 8 then s * (255 / (2 ^ f.depth - 1)) else s : Nat) : ℚ) / top f = s / (2 ^ f.depth - 1) := by
  obtain ⟨d, e⟩ : ∃ d, f.depth = d := ⟨_, rfl⟩
  unfold top
  rw [e] at hd hs ⊢
  fin_cases hd
  · refine ⟨?_, ?_⟩
    · norm_num at hs ⊢; omega
    · norm_num
  · refine ⟨?_, ?_⟩
    · norm_num at hs ⊢; omega
    · norm_num; ring
  · refine ⟨?_, ?_⟩
    · norm_num at hs ⊢; omega
    · norm_num; ring
  · refine ⟨?_, ?_⟩
    · norm_num at hs ⊢; omega
    · norm_num
  · refine ⟨?_, ?_⟩
    · norm_num at hs ⊢; omega
    · norm_num

theorem outSample_plain (f : File) (h3 : f.ct ≠ 3) (hlow : f.depth < 8 → f.ct = 0) (x y c : Nat) (hc : c < channelsOf f.ct) :
    outSample f (asked f) x y c = if f.depth < 8 then f.sample x y c * (255 / (2 ^ f.depth - 1)) else f.sample x y c := by
  unfold outSample
  by_cases he : (asked f).expand = true
  · rw [if_pos he, if_neg h3, if_pos hc]
  · rw [if_neg he]
    by_cases hd : f.depth < 8
    · exfalso; apply he
      simp [Asked.expand, asked, hlow hd, hd]
    · rw [if_neg hd]

theorem outSample_key (f : File) (h3 : f.ct ≠ 3) (t : List Nat) (ht : f.trns = some t) (x y c : Nat) (hc : ¬ c < channelsOf f.ct) :
    outSample f (asked f) x y c = if (List.range (channelsOf f.ct)).map (f.sample x y) = t then 0
      else 2 ^ (if f.depth < 8 then 8 else f.depth) - 1 := by
  unfold outSample
  have he : (asked f).expand = true := by simp [Asked.expand, asked, ht]
  rw [if_pos he, if_neg h3, if_neg hc, ht]; rfl

theorem outSample_pal (f : File) (h3 : f.ct = 3) (x y c : Nat) :
    outSample f (asked f) x y c = if c < 3 then (((f.palette[f.sample x y 0]?).getD [])[c]?).getD 0
      else (((f.trns.getD [])[f.sample x y 0]?).getD 255) := by
  unfold outSample
  have he : (asked f).expand = true := by simp [Asked.expand, asked, h3]
  rw [if_pos he, if_pos h3]

theorem key_ok (f : File) (hd : f.depth ∈ [1, 2, 4, 8, 16]) (p : Prop) [Decidable p] :
    (if p then 0 else 2 ^ (if f.depth < 8 then 8 else f.depth) - 1) ≤ top f ∧
    ((if p then 0 else 2 ^ (if f.depth < 8 then 8 else f.depth) - 1 : Nat) : ℚ) / top f = if p then 0 else 1 := by
  obtain ⟨d, e⟩ : ∃ d, f.depth = d := ⟨_, rfl⟩
  unfold top
  rw [e] at hd ⊢
  by_cases hp : p
  · simp [hp]
  · simp only [hp, if_false]
    fin_cases hd <;> norm_num

/-- Every delivered level is in range and is the specified value. -/
theorem out_value (f : File) (h : Valid f) (x y c : Nat) (hx : x < f.w) (hy : y < f.h) (hc : c < chans f) :
    outSample f (asked f) x y c ≤ top f ∧ (outSample f (asked f) x y c : ℚ) / top f = want f x y c := by
  classical
  have hs := fun c hc => h.samples x y c hx hy hc
  have hch := chans_eq f h
  have hf := h.form
  have htr := h.trns
  rcases hf with ⟨hct, hm⟩ | ⟨hct, hm⟩ | ⟨hct, hm⟩ | ⟨hct, hm⟩ | ⟨hct, hm⟩
  · -- grey
    rw [if_pos (show IsGrey f from Or.inl hct)] at hch
    by_cases h0 : c < channelsOf f.ct
    · rw [outSample_plain f (by omega) (fun _ => hct) x y c h0]
      obtain rfl : c = 0 := by simp [channelsOf, hct] at h0; exact h0
      have := level_ok f hm _ (hs 0 h0)
      refine ⟨this.1, this.2.trans ?_⟩
      simp [want, shown, hct]
    · cases ht : f.trns with
      | none =>
        rw [if_neg (by simp [HasAlpha, ht, hct])] at hch
        simp [channelsOf, hct] at h0; omega
      | some t =>
        rw [outSample_key f (by omega) t ht x y c h0]
        have := key_ok f hm ((List.range (channelsOf f.ct)).map (f.sample x y) = t)
        refine ⟨this.1, this.2.trans ?_⟩
        have hc0 : c ≠ 0 := by simp [channelsOf, hct] at h0; exact h0
        simp [want, shown, hct, ht, hc0, channelsOf, List.range_succ, eq_comm]
  · -- RGB
    have hm' : f.depth ∈ [1, 2, 4, 8, 16] := by simp at hm ⊢; omega
    have h8 : ¬ f.depth < 8 := by simp at hm ⊢; omega
    rw [if_neg (show ¬ IsGrey f by simp [IsGrey, hct])] at hch
    by_cases h0 : c < channelsOf f.ct
    · rw [outSample_plain f (by omega) (fun h => absurd h h8) x y c h0]
      have := level_ok f hm' _ (hs c h0)
      refine ⟨this.1, this.2.trans ?_⟩
      have h0' : c < 3 := by simpa [channelsOf, hct] using h0
      interval_cases c <;> simp [want, shown, hct]
    · cases ht : f.trns with
      | none =>
        rw [if_neg (by simp [HasAlpha, ht, hct])] at hch
        simp [channelsOf, hct] at h0; omega
      | some t =>
        rw [outSample_key f (by omega) t ht x y c h0]
        have := key_ok f hm' ((List.range (channelsOf f.ct)).map (f.sample x y) = t)
        refine ⟨this.1, this.2.trans ?_⟩
        have hc0 : 3 ≤ c := by simpa [channelsOf, hct] using h0
        have c0 : c ≠ 0 := by omega
        have c1 : c ≠ 1 := by omega
        have c2 : c ≠ 2 := by omega
        simp [want, shown, hct, ht, c0, c1, c2, channelsOf, List.range_succ, eq_comm]
  · -- palette
    rw [if_neg (show ¬ IsGrey f by simp [IsGrey, hct])] at hch
    have htop : top f = 255 := by unfold top; rw [if_neg]; simp at hm; omega
    obtain ⟨hp, hi⟩ := h.palette hct
    have hi := hi x y hx hy
    obtain ⟨r, g, b, he, hr, hg, hb⟩ := hp _ (List.getElem_mem hi)
    have hget : f.palette[f.sample x y 0]? = some [r, g, b] := by rw [List.getElem?_eq_getElem hi, he]
    rw [outSample_pal f hct x y c, htop, hget]
    by_cases h3 : c < 3
    · interval_cases c <;> simp [want, shown, hct, hget] <;> omega
    · rw [if_neg h3]
      have hta := h.trnsPal hct
      have c0 : c ≠ 0 := by omega
      have c1 : c ≠ 1 := by omega
      have c2 : c ≠ 2 := by omega
      refine ⟨?_, by simp [want, shown, hct, hget, c0, c1, c2]⟩
      cases ht : f.trns with
      | none => simp
      | some t =>
        simp only [Option.getD_some]
        cases hq : t[f.sample x y 0]? with
        | none => simp
        | some v =>
          have := hta t ht v (List.mem_of_getElem? hq)
          simp; omega
  · -- grey + alpha
    have hm' : f.depth ∈ [1, 2, 4, 8, 16] := by simp at hm ⊢; omega
    have h8 : ¬ f.depth < 8 := by simp at hm ⊢; omega
    rw [if_pos (show IsGrey f from Or.inr hct), if_pos (show HasAlpha f from Or.inr (Or.inl hct))] at hch
    rw [outSample_plain f (by omega) (fun h => absurd h h8) x y c (by simp [channelsOf, hct]; omega)]
    have := level_ok f hm' _ (hs c (by simp [channelsOf, hct]; omega))
    refine ⟨this.1, this.2.trans ?_⟩
    have h0' : c < 2 := by omega
    interval_cases c <;> simp [want, shown, hct]
  · -- RGB + alpha
    have hm' : f.depth ∈ [1, 2, 4, 8, 16] := by simp at hm ⊢; omega
    have h8 : ¬ f.depth < 8 := by simp at hm ⊢; omega
    rw [if_neg (show ¬ IsGrey f by simp [IsGrey, hct]), if_pos (show HasAlpha f from Or.inr (Or.inr hct))] at hch
    rw [outSample_plain f (by omega) (fun h => absurd h h8) x y c (by simp [channelsOf, hct]; omega)]
    have := level_ok f hm' _ (hs c (by simp [channelsOf, hct]; omega))
    refine ⟨this.1, this.2.trans ?_⟩
    have h0' : c < 4 := by omega
    interval_cases c <;> simp [want, shown, hct]

/-! ## Reading -/

/-- A byte of the raw buffer. -/
theorem raw_get (f : File) (y k : Nat) (hy : y < f.h) (hk : k < rowBytes f (asked f)) :
    at? ((List.range (rowBytes f (asked f) * f.h)).map fun i => rowByte f (asked f) (i / rowBytes f (asked f)) (i % rowBytes f (asked f)))
      (y * rowBytes f (asked f) + k) = .ok (rowByte f (asked f) y k) := by
  set rb := rowBytes f (asked f)
  have h1 : y * rb + k < rb * f.h := by
    have : (y + 1) * rb ≤ f.h * rb := Nat.mul_le_mul_right _ hy
    rw [Nat.succ_mul] at this
    rw [Nat.mul_comm rb]; omega
  have hd : (y * rb + k) / rb = y := by
    rw [Nat.mul_comm, Nat.mul_add_div (by omega), Nat.div_eq_of_lt hk, Nat.add_zero]
  have hmod : (y * rb + k) % rb = k := by
    rw [Nat.mul_comm, Nat.mul_add_mod, Nat.mod_eq_of_lt hk]
  unfold at?
  rw [List.getElem?_map, List.getElem?_range h1]
  simp only [Option.map_some, hd, hmod]

theorem sample_index (w ch x c : Nat) (hx : x < w) (hc : c < ch) :
    x * ch + c < w * ch ∧ (x * ch + c) / ch = x ∧ (x * ch + c) % ch = c := by
  refine ⟨?_, ?_, ?_⟩
  · have : (x + 1) * ch ≤ w * ch := Nat.mul_le_mul_right _ hx
    rw [Nat.succ_mul] at this; omega
  · rw [Nat.mul_comm, Nat.mul_add_div (by omega), Nat.div_eq_of_lt hc, Nat.add_zero]
  · rw [Nat.mul_comm, Nat.mul_add_mod, Nat.mod_eq_of_lt hc]

/-- The raw buffer `read_png_raw_` returns. -/
def rawOf (f : File) : List Nat :=
  (List.range (rowBytes f (asked f) * f.h)).map fun i => rowByte f (asked f) (i / rowBytes f (asked f)) (i % rowBytes f (asked f))

theorem read8 {fl : ℚ → ℚ} (hfl : IsRounding fl) (f : File) (h : Valid f) (h8 : f.depth ≠ 16) (x y c : Nat) (hx : x < f.w) (hy : y < f.h)
    (hc : c < chans f) : readU8 fl (rawOf f) (y * rowBytes f (asked f) + x * chans f + c) = .ok (fl (want f x y c)) := by
  have hd := out_depth f h
  rw [if_neg h8] at hd
  obtain ⟨i1, i2, i3⟩ := sample_index f.w (chans f) x c hx hc
  have hrb : rowBytes f (asked f) = f.w * chans f := by
    unfold rowBytes chans; rw [hd]; omega
  have hv := out_value f h x y c hx hy hc
  have ht : top f = 255 := by unfold top; rw [if_neg h8]
  rw [ht] at hv
  unfold readU8
  rw [Nat.add_assoc]
  unfold rawOf
  rw [raw_get f y _ hy (by rw [hrb]; exact i1)]
  have hb : rowByte f (asked f) y (x * chans f + c) = outSample f (asked f) x y c := by
    unfold rowByte
    have hc' : channelsOf (outFormat f (asked f)).1 = chans f := rfl
    simp only [hd, hc', i2, i3]
    rw [if_neg (by decide), if_pos trivial]
  rw [hb, Res.ok_bind, toFloatU_eq hfl 255 _ (by norm_num) (by omega) (by omega), ← hv.2]
  norm_num

theorem read16 {fl : ℚ → ℚ} (hfl : IsRounding fl) (f : File) (h : Valid f) (h16 : f.depth = 16) (x y c : Nat) (hx : x < f.w) (hy : y < f.h)
    (hc : c < chans f) : readU16 fl (rawOf f) (y * rowBytes f (asked f) + x * chans f * 2 + c * 2) = .ok (fl (want f x y c)) := by
  have hd := out_depth f h
  rw [if_pos h16] at hd
  obtain ⟨i1, i2, i3⟩ := sample_index f.w (chans f) x c hx hc
  have hrb : rowBytes f (asked f) = f.w * chans f * 2 := by
    unfold rowBytes chans; rw [hd]; omega
  have hv := out_value f h x y c hx hy hc
  have ht : top f = 65535 := by unfold top; rw [if_pos h16]
  rw [ht] at hv
  have hsw : (asked f).swap = true := by simp [asked, h16]
  have hb : ∀ j, j < 2 → rowByte f (asked f) y ((x * chans f + c) * 2 + j) =
      if j = 0 then outSample f (asked f) x y c % 256 else outSample f (asked f) x y c / 256 := by
    intro j hj
    have e : ((x * chans f + c) * 2 + j) / 2 = x * chans f + c := by omega
    have e2 : ((x * chans f + c) * 2 + j) % 2 = j := by omega
    unfold rowByte
    have hc' : channelsOf (outFormat f (asked f)).1 = chans f := rfl
    simp only [hd, if_true, e, e2, hsw, hc', i2, i3]
    by_cases hj0 : j = 0 <;> simp [hj0]
  unfold readU16 rawOf
  rw [show y * rowBytes f (asked f) + x * chans f * 2 + c * 2 = y * rowBytes f (asked f) + ((x * chans f + c) * 2 + 0) by ring,
    raw_get f y _ hy (by rw [hrb]; omega), Res.ok_bind, Nat.add_assoc, Nat.add_assoc,
    raw_get f y _ hy (by rw [hrb]; omega), Res.ok_bind, hb 0 (by omega), show 0 + 1 = 1 from rfl, hb 1 (by omega)]
  simp only [if_true, one_ne_zero, if_false]
  rw [show outSample f (asked f) x y c % 256 + 256 * (outSample f (asked f) x y c / 256) = outSample f (asked f) x y c by omega,
    toFloatU_eq hfl 65535 _ (by norm_num) (by omega) (by omega), ← hv.2]
  norm_num

/-- The colour expected of the reader. -/
noncomputable def wantColour (fl : ℚ → ℚ) (f : File) (x y : Nat) : Colour := by
  classical
  exact if IsGrey f then .grey (fl (shown f x y).1) else .rgb (fl (shown f x y).1) (fl (shown f x y).2.1) (fl (shown f x y).2.2.1)

theorem readPixel_ok {fl : ℚ → ℚ} (hfl : IsRounding fl) (f : File) (h : Valid f) (hcomp : f.complete = true) (alpha : Bool)
    (halpha : alpha = true → HasAlpha f) (p : Data) (hp : decodeFile f = .ok p) (x y : Nat) (hx : x < f.w) (hy : y < f.h) :
    readPixel fl p alpha x y = .ok (wantColour fl f x y, if alpha then some (fl (shown f x y).2.2.2) else none) := by
  classical
  unfold decodeFile at hp
  simp only [hcomp, if_true, Res.ok.injEq] at hp
  have hch := chans_eq f h
  have hcc := channelCount_eq f h
  have hct := out_ct f h
  have hd := out_depth f h
  have hgray : p.isGray = decide (IsGrey f) := by
    rw [← hp]; simp only [hct]
    by_cases h1 : IsGrey f <;> by_cases h2 : HasAlpha f <;> simp [h1, h2]
  have hw : ∀ c, IsGrey f → want f x y c = if c = 0 then (shown f x y).1 else (shown f x y).2.2.2 := by
    intro c hg; unfold want; simp only [if_pos (show f.ct = 0 ∨ f.ct = 4 from hg)]
  have hw2 : ∀ c, ¬ IsGrey f → want f x y c = if c = 0 then (shown f x y).1 else if c = 1 then (shown f x y).2.1 else
      if c = 2 then (shown f x y).2.2.1 else (shown f x y).2.2.2 := by
    intro c hg; unfold want; simp only [if_neg (show ¬ (f.ct = 0 ∨ f.ct = 4) from hg)]
  have e1 : p.raw = rawOf f := by rw [← hp]; rfl
  have e2 : p.rowBytes = rowBytes f (asked f) := by rw [← hp]
  have e3 : p.channels = chans f := by rw [← hp]; exact hcc
  have e4 : p.depth = if f.depth = 16 then 16 else 8 := by rw [← hp]; exact hd
  unfold readPixel
  rw [e1, e2, e3, e4, hgray]
  by_cases h16 : f.depth = 16
  · have R := fun c hc => read16 hfl f h h16 x y c hx hy hc
    rw [if_pos (by rw [if_pos h16])]
    by_cases hg : IsGrey f
    · have r0 := R 0 (by rw [hch, if_pos hg]; omega)
      rw [hw _ hg] at r0
      simp only [Nat.zero_mul, Nat.add_zero, if_true] at r0
      cases alpha with
      | false => simp [hg, r0, wantColour]
      | true =>
        have r1 := R 1 (by rw [hch, if_pos hg, if_pos (halpha rfl)]; omega)
        rw [hw _ hg] at r1
        simp only [Nat.one_mul, one_ne_zero, if_false] at r1
        simp [hg, r0, r1, wantColour]
    · have r0 := R 0 (by rw [hch, if_neg hg]; omega)
      have r1 := R 1 (by rw [hch, if_neg hg]; omega)
      have r2 := R 2 (by rw [hch, if_neg hg]; omega)
      rw [hw2 _ hg] at r0 r1 r2
      norm_num at r0 r1 r2
      cases alpha with
      | false => simp [hg, r0, r1, r2, wantColour]
      | true =>
        have r3 := R 3 (by rw [hch, if_neg hg, if_pos (halpha rfl)]; omega)
        rw [hw2 _ hg] at r3
        norm_num at r3
        simp [hg, r0, r1, r2, r3, wantColour]
  · have R := fun c hc => read8 hfl f h h16 x y c hx hy hc
    rw [if_neg (by rw [if_neg h16]; decide)]
    by_cases hg : IsGrey f
    · have r0 := R 0 (by rw [hch, if_pos hg]; omega)
      rw [hw _ hg] at r0
      simp only [Nat.zero_mul, Nat.add_zero, if_true] at r0
      cases alpha with
      | false => simp [hg, r0, wantColour]
      | true =>
        have r1 := R 1 (by rw [hch, if_pos hg, if_pos (halpha rfl)]; omega)
        rw [hw _ hg] at r1
        simp only [one_ne_zero, if_false] at r1
        simp [hg, r0, r1, wantColour]
    · have r0 := R 0 (by rw [hch, if_neg hg]; omega)
      have r1 := R 1 (by rw [hch, if_neg hg]; omega)
      have r2 := R 2 (by rw [hch, if_neg hg]; omega)
      rw [hw2 _ hg] at r0 r1 r2
      norm_num at r0 r1 r2
      cases alpha with
      | false => simp [hg, r0, r1, r2, wantColour]
      | true =>
        have r3 := R 3 (by rw [hch, if_neg hg, if_pos (halpha rfl)]; omega)
        rw [hw2 _ hg] at r3
        norm_num at r3
        simp [hg, r0, r1, r2, r3, wantColour]

/-! ## The image read -/

/-- A byte string libpng recognises as the file `f`. -/
structure IsPng (lib : Lib) (d : List Byte) (f : File) : Prop where
  long : 8 ≤ d.length
  sig : d.take 8 = [137, 80, 78, 71, 13, 10, 26, 10]
  parse : lib.parse d = some f

open scoped Classical in
theorem readImage_ok {P : Type} {fl : ℚ → ℚ} (hfl : IsRounding fl) (conv : Colour → P) (lib : Lib) (d : List Byte) (f : File) (hf : IsPng lib d f)
    (h : Valid f) (hcomp : f.complete = true) (hsz : f.w * f.h < 2147483648) (ra : Bool) :
    ∃ b, readImage fl conv lib d ra = .ok b ∧ b.image.w = f.w ∧ b.image.h = f.h ∧
      (∀ x y, x < f.w → y < f.h → b.image.data[y * f.w + x]? = some (conv (wantColour fl f x y))) ∧
      (if ra = true ∧ HasAlpha f then b.alpha.w = f.w ∧ b.alpha.h = f.h ∧
          ∀ x y, x < f.w → y < f.h → b.alpha.data[y * f.w + x]? = some (.val (fl (shown f x y).2.2.2))
        else b.alpha = ⟨0, 0, []⟩) ∧
      b.hint = (hintOf fl (detect f)).1 ∧ b.gamma = (hintOf fl (detect f)).2 ∧ b.depth = 8 ∧
      b.image.data.length = f.h * f.w ∧ (b.alpha.data.length = b.alpha.h * b.alpha.w) := by
  have hr : readRaw lib d = decodeFile f := by
    unfold readRaw
    rw [if_neg (by have := hf.long; omega), if_neg (by rw [hf.sig]; simp), hf.parse]
  obtain ⟨p, hp⟩ : ∃ p, decodeFile f = .ok p := by
    unfold decodeFile; simp only [hcomp, if_true]; exact ⟨_, rfl⟩
  have hpw : p.w = f.w ∧ p.h = f.h ∧ p.space = detect f ∧ p.hasAlpha = decide (HasAlpha f) := by
    have hct := out_ct f h
    unfold decodeFile at hp
    simp only [hcomp, if_true, Res.ok.injEq] at hp
    refine ⟨by rw [← hp], by rw [← hp], by rw [← hp], ?_⟩
    rw [← hp]; simp only [hct]
    by_cases h1 : IsGrey f <;> by_cases h2 : HasAlpha f <;> simp [h1, h2]
  obtain ⟨e1, e2, e3, e4⟩ := hpw
  set al := ra && p.hasAlpha with hal
  have halp : al = true → HasAlpha f := by rw [hal, e4]; simp
  have hpx : mapRes (fun q => readPixel fl p al q.1 q.2) (grid p.w p.h) = .ok ((grid f.w f.h).map fun q =>
      (wantColour fl f q.1 q.2, if al then some (fl (shown f q.1 q.2).2.2.2) else none)) := by
    rw [e1, e2]
    apply mapRes_ok
    intro q hq
    obtain ⟨hx, hy⟩ := (mem_grid _ _ _).1 hq
    exact readPixel_ok hfl f h hcomp al halp p hp q.1 q.2 hx hy
  have hread : readImage fl conv lib d ra = .ok
      { image := ⟨p.w, p.h, ((grid f.w f.h).map fun q =>
          (wantColour fl f q.1 q.2, if al then some (fl (shown f q.1 q.2).2.2.2) else none)).map fun c => conv c.1⟩
        alpha := if al then ⟨p.w, p.h, ((grid f.w f.h).map fun q =>
          (wantColour fl f q.1 q.2, if al then some (fl (shown f q.1 q.2).2.2.2) else none)).map fun c => .val (c.2.getD 1)⟩ else ⟨0, 0, []⟩
        hint := (hintOf fl p.space).1, gamma := (hintOf fl p.space).2, depth := 8 } := by
    unfold readImage
    rw [hr, hp, Res.ok_bind, show i32 ((p.w : Int) * p.h) = .ok ((p.w : Int) * p.h) by
      unfold i32; rw [if_pos]; rw [e1, e2]; exact ⟨by have : (0 : Int) ≤ (f.w : Int) * f.h := by positivity
                                                      omega, by exact_mod_cast hsz⟩, Res.ok_bind]
    change (mapRes (fun q => readPixel fl p al q.1 q.2) (grid p.w p.h) >>= _) = _
    rw [hpx]; rfl
  refine ⟨_, hread, e1, e2, ?_, ?_, by simp only [e3], by simp only [e3], rfl, by simp [grid_length], ?_⟩
  · intro x y hx hy
    simp only [List.map_map, List.getElem?_map, grid_get f.w f.h x y hx hy, Option.map_some, Function.comp]
  · by_cases ha : ra = true ∧ HasAlpha f
    · have : al = true := by rw [hal, e4]; simp [ha]
      rw [if_pos ha]
      simp only [this, if_true]
      refine ⟨e1, e2, ?_⟩
      intro x y hx hy
      simp only [List.map_map, List.getElem?_map, grid_get f.w f.h x y hx hy, Option.map_some, Function.comp, Option.getD_some]
    · have : al = false := by
        rw [hal, e4]; rw [not_and] at ha
        cases ra <;> simp_all
      rw [if_neg ha]
      simp [this]
  · cases al <;> simp [grid_length, e1, e2]

open scoped Classical in
/-- **C104 (partial).**  Every PNG file that is complete and has less than 2^31 pixels is read as the PNG specification says: the resolution is the file's, each
pixel is the colour the file shows there (nearest `float`s; grey files in all three channels; palette entries looked
up; low bit depths scaled to the full range), and the opacity is read exactly when asked for and present (alpha
channel or transparent colour). -/
theorem C104_read_partial {fl : ℚ → ℚ} (hfl : IsRounding fl) (lib : Lib) (d : List Byte) (f : File) (hf : IsPng lib d f)
    (h : Valid f) (hcomp : f.complete = true) (hsz : f.w * f.h < 2147483648) (ra : Bool) :
    ∃ b, readRGB fl lib d ra = .ok b ∧ b.image.w = f.w ∧ b.image.h = f.h ∧
      (∀ x y, x < f.w → y < f.h → b.image.data[y * f.w + x]? =
        some (.val (fl (shown f x y).1), .val (fl (shown f x y).2.1), .val (fl (shown f x y).2.2.1))) ∧
      (if ra = true ∧ HasAlpha f then b.alpha.w = f.w ∧ b.alpha.h = f.h ∧
          ∀ x y, x < f.w → y < f.h → b.alpha.data[y * f.w + x]? = some (.val (fl (shown f x y).2.2.2))
        else b.alpha = ⟨0, 0, []⟩) := by
  obtain ⟨b, h1, h2, h3, h4, h5, _⟩ := readImage_ok hfl asRGB lib d f hf h hcomp hsz ra
  refine ⟨b, h1, h2, h3, ?_, h5⟩
  intro x y hx hy
  rw [h4 x y hx hy]
  unfold wantColour
  by_cases hg : IsGrey f
  · rw [if_pos hg]
    have : (shown f x y).2.1 = (shown f x y).1 ∧ (shown f x y).2.2.1 = (shown f x y).1 := by
      rcases hg with hg | hg <;> simp [shown, hg]
    rw [this.1, this.2]; rfl
  · rw [if_neg hg]; rfl

theorem shown_range (f : File) (h : Valid f) (x y : Nat) (hx : x < f.w) (hy : y < f.h) :
    (0 ≤ (shown f x y).1 ∧ (shown f x y).1 ≤ 1) ∧ (0 ≤ (shown f x y).2.1 ∧ (shown f x y).2.1 ≤ 1) ∧
    (0 ≤ (shown f x y).2.2.1 ∧ (shown f x y).2.2.1 ≤ 1) := by
  have key : ∀ c, c < channelsOf f.ct → 0 ≤ (f.sample x y c : ℚ) / (2 ^ f.depth - 1) ∧ (f.sample x y c : ℚ) / (2 ^ f.depth - 1) ≤ 1 := by
    intro c hc
    have h1 := h.samples x y c hx hy hc
    have h2 : (f.sample x y c : ℚ) ≤ 2 ^ f.depth - 1 := by
      have : f.sample x y c + 1 ≤ 2 ^ f.depth := h1
      have : ((f.sample x y c + 1 : Nat) : ℚ) ≤ ((2 ^ f.depth : Nat) : ℚ) := by exact_mod_cast this
      push_cast at this; linarith
    have h3 : (0 : ℚ) ≤ f.sample x y c := Nat.cast_nonneg _
    have h4 : (0 : ℚ) ≤ 2 ^ f.depth - 1 := by linarith
    exact ⟨div_nonneg h3 h4, div_le_one_of_le₀ h2 h4⟩
  rcases h.form with ⟨hct, hm⟩ | ⟨hct, hm⟩ | ⟨hct, hm⟩ | ⟨hct, hm⟩ | ⟨hct, hm⟩
  · have := key 0 (by simp [channelsOf, hct])
    simp only [shown, hct, if_true]; exact ⟨this, this, this⟩
  · have k0 := key 0 (by simp [channelsOf, hct])
    have k1 := key 1 (by simp [channelsOf, hct])
    have k2 := key 2 (by simp [channelsOf, hct])
    simp only [shown, hct]; norm_num; exact ⟨k0, k1, k2⟩
  · obtain ⟨hp, hi⟩ := h.palette hct
    have hi := hi x y hx hy
    obtain ⟨r, g, b, he, hr, hg, hb⟩ := hp _ (List.getElem_mem hi)
    have hget : f.palette[f.sample x y 0]? = some [r, g, b] := by rw [List.getElem?_eq_getElem hi, he]
    have k : ∀ n : Nat, n < 256 → (0 : ℚ) ≤ (n : ℚ) / 255 ∧ (n : ℚ) / 255 ≤ 1 := by
      intro n hn
      have : (n : ℚ) ≤ 255 := by exact_mod_cast (by omega : n ≤ 255)
      exact ⟨by positivity, div_le_one_of_le₀ this (by norm_num)⟩
    simp only [shown, hct, hget]; norm_num; exact ⟨k r hr, k g hg, k b hb⟩
  · have := key 0 (by simp [channelsOf, hct])
    simp only [shown, hct]; norm_num; exact this
  · have k0 := key 0 (by simp [channelsOf, hct])
    have k1 := key 1 (by simp [channelsOf, hct])
    have k2 := key 2 (by simp [channelsOf, hct])
    simp only [shown, hct]; norm_num; exact ⟨k0, k1, k2⟩

/-- **C104 (partial).**  The mono reader returns the mean of red, green and blue to within 2^-21, and for files without colour the
nearest `float` to the grey value. -/
theorem C104_read_mono_partial {fl : ℚ → ℚ} (hfl : IsRounding fl) (lib : Lib) (d : List Byte) (f : File) (hf : IsPng lib d f)
    (h : Valid f) (hcomp : f.complete = true) (hsz : f.w * f.h < 2147483648) (ra : Bool) :
    ∃ b, readMono fl lib d ra = .ok b ∧ b.image.w = f.w ∧ b.image.h = f.h ∧
      ∀ x y, x < f.w → y < f.h → ∃ v, b.image.data[y * f.w + x]? = some (.val v) ∧
        |v - ((shown f x y).1 + (shown f x y).2.1 + (shown f x y).2.2.1) / 3| ≤ 1 / 2 ^ 21 ∧
        (IsGrey f → v = fl (shown f x y).1) := by
  obtain ⟨b, h1, h2, h3, h4, _⟩ := readImage_ok hfl (asMono fl) lib d f hf h hcomp hsz ra
  refine ⟨b, h1, h2, h3, ?_⟩
  intro x y hx hy
  obtain ⟨⟨r0, r1⟩, ⟨g0, g1⟩, ⟨b0, b1⟩⟩ := shown_range f h x y hx hy
  rw [h4 x y hx hy]
  unfold wantColour
  have near : ∀ z : ℚ, |z| ≤ 4 → |fl z - z| ≤ 1 / 2 ^ 22 := by
    intro z hz
    have := hfl.rel z
    calc |fl z - z| ≤ |z| / 2 ^ 24 := this
      _ ≤ 4 / 2 ^ 24 := by gcongr
      _ = 1 / 2 ^ 22 := by norm_num
  have near1 : ∀ z : ℚ, 0 ≤ z → z ≤ 1 → |fl z - z| ≤ 1 / 2 ^ 24 := by
    intro z h0 hz
    have := hfl.rel z
    rw [abs_of_nonneg h0] at this
    calc |fl z - z| ≤ z / 2 ^ 24 := this
      _ ≤ 1 / 2 ^ 24 := by gcongr
  by_cases hg : IsGrey f
  · rw [if_pos hg]
    have : (shown f x y).2.1 = (shown f x y).1 ∧ (shown f x y).2.2.1 = (shown f x y).1 := by
      rcases hg with hg | hg <;> simp [shown, hg]
    refine ⟨_, rfl, ?_, fun _ => rfl⟩
    rw [this.1, this.2]
    have e := near1 _ r0 r1
    rw [show ((shown f x y).1 + (shown f x y).1 + (shown f x y).1) / 3 = (shown f x y).1 by ring]
    refine e.trans (by norm_num)
  · rw [if_neg hg]
    refine ⟨_, rfl, ?_, fun h => absurd h hg⟩
    generalize (shown f x y).1 = r at *
    generalize (shown f x y).2.1 = g at *
    generalize (shown f x y).2.2.1 = bb at *
    have e1 := abs_le.1 (near1 r r0 r1)
    have e2 := abs_le.1 (near1 g g0 g1)
    have e3 := abs_le.1 (near1 bb b0 b1)
    have s1 := abs_le.1 (near (fl r + fl g) (by rw [abs_le]; norm_num at e1 e2 ⊢; constructor <;> linarith))
    have s2 := abs_le.1 (near (fl (fl r + fl g) + fl bb) (by rw [abs_le]; norm_num at e1 e2 e3 s1 ⊢; constructor <;> linarith))
    have s3 := abs_le.1 (near (fl (fl (fl r + fl g) + fl bb) / 3) (by rw [abs_le]; norm_num at e1 e2 e3 s1 s2 ⊢; constructor <;> linarith))
    rw [abs_le]
    norm_num at e1 e2 e3 s1 s2 s3 ⊢
    constructor <;> linarith

end Huira.ImageIO.Png
