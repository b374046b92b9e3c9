import Verif.ImageIO.Bmp
/-! # BMP properties C21, C27 -/
set_option linter.unusedSimpArgs false
namespace Huira.ImageIO.Bmp

/-- Header fields of a BMP file as the format documents them (little endian; sizes at byte 18 and 22). -/
def hdrWidth (d : List Byte) : Int := s32 (le32 d 18)
def hdrHeight (d : List Byte) : Int := s32 (le32 d 22)
def hdrBpp (d : List Byte) : Nat := le16 d 28
def hdrOffset (d : List Byte) : Nat := le32 d 10
/-- Bytes per stored row: padded to a multiple of four. -/
def rowBytes (d : List Byte) : Nat := ((hdrWidth d).toNat * (hdrBpp d / 8) + 3) / 4 * 4

/-- C21 in full. -/
def C21_full : Prop := ∀ (maxAlloc : Nat) (d : List Byte), readRaw maxAlloc d ≠ .ub

/-- A 54-byte header with the given width, height and depth, pixel data at 54. -/
def header (w h : List Byte) (bpp : Byte) : List Byte :=
  [0x42, 0x4D, 0, 0, 0, 0, 0, 0, 0, 0, 54, 0, 0, 0, 40, 0, 0, 0] ++ w ++ h ++ [1, 0, bpp, 0, 0, 0, 0, 0] ++
  List.replicate 20 0

/-- **C21 (violated).** A 54-byte file announcing a width of 2^30 at 32 bits overflows the row size computation. -/
theorem C21_violated : ¬ C21_full := by
  intro h
  exact h (2 ^ 40) (header [0, 0, 0, 0x40] [1, 0, 0, 0] 32) (by decide)

/-- **C21 (violated).** A height of -2^31 overflows on negation. -/
theorem C21_min_height : readRaw (2 ^ 40) (header [1, 0, 0, 0] [0, 0, 0, 0x80] 24) = .ub := by decide

theorem i32_ok (n : Int) (h : -2147483648 ≤ n ∧ n < 2147483648) : i32 n = .ok n := by
  unfold i32; rw [if_pos h]

theorem toSizeT_nonneg (n : Int) (h0 : 0 ≤ n) (h1 : n < 18446744073709551616) : toSizeT n = n.toNat := by
  unfold toSizeT; rw [Int.emod_eq_of_lt h0 h1]

/-- The sizes announced by the header stay within `int`. -/
structure Moderate (d : List Byte) : Prop where
  width_lo : -2147483648 ≤ hdrWidth d * 4
  width_hi : hdrWidth d * 4 < 2147483648
  height_lo : -2147483648 < hdrHeight d * 4
  height_hi : hdrHeight d * 4 < 2147483648
  area : hdrWidth d * (hdrHeight d).natAbs < 2147483648

/-- The moves of one pixel when everything fits. -/
def idealMoves (offset stride w h fc oc : Nat) (flip alpha : Bool) (p : Nat × Nat) : List (Nat × Nat) :=
  let sy := if flip then h - 1 - p.2 else p.2
  let src := offset + sy * stride + p.1 * fc
  let dst := (p.2 * w + p.1) * oc
  [(dst + 0, src + 2), (dst + 1, src + 1), (dst + 2, src + 0)] ++ (if alpha then [(dst + 3, src + 3)] else [])

theorem pixelMoves_ok (offset stride w h fc oc : Nat) (flip alpha : Bool) (p : Nat × Nat) (hx : p.1 < w) (hy : p.2 < h)
    (hw : w * 4 < 2147483648) (hh : h * 4 < 2147483648) (ha : w * h < 2147483648) (hfc : fc ≤ 4) :
    pixelMoves offset stride w h fc oc flip alpha p = .ok (idealMoves offset stride w h fc oc flip alpha p) := by
  have h1 : p.1 * fc < 2147483648 := by
    have : p.1 * fc ≤ p.1 * 4 := Nat.mul_le_mul_left _ hfc
    omega
  have h2 : p.2 * w < 2147483648 := by
    have : p.2 * w ≤ h * w := Nat.mul_le_mul_right _ (by omega)
    rw [Nat.mul_comm h w] at this
    omega
  unfold pixelMoves idealMoves
  have e1 : i32 ((p.1 : Int) * fc) = .ok ((p.1 * fc : Nat) : Int) := by
    rw [i32_ok]
    · push_cast; rfl
    · rw [← Int.natCast_mul]; omega
  have e2 : i32 ((p.2 : Int) * (w : Int)) = .ok ((p.2 * w : Nat) : Int) := by
    rw [i32_ok]
    · push_cast; rfl
    · rw [← Int.natCast_mul]; omega
  have e3 : toSizeT ((p.1 * fc : Nat) : Int) = p.1 * fc := by
    rw [toSizeT_nonneg _ (by omega) (by omega)]; exact Int.toNat_natCast _
  have e4 : toSizeT ((p.2 * w : Nat) : Int) = p.2 * w := by
    rw [toSizeT_nonneg _ (by omega) (by omega)]; exact Int.toNat_natCast _
  have e5 : toSizeT (if flip = true then (h : Int) - 1 - (p.2 : Int) else (p.2 : Int)) =
      if flip = true then h - 1 - p.2 else p.2 := by
    cases flip
    · simp only [Bool.false_eq_true, if_false]
      rw [toSizeT_nonneg _ (by omega) (by omega)]; exact Int.toNat_natCast _
    · simp only [if_true]
      rw [toSizeT_nonneg _ (by omega) (by omega)]; omega
  simp only [e1, e2, Res.ok_bind, e3, e4, e5]

/-- Everything the reader does after the header checks, for moderate sizes. -/
theorem decode_ok (d : List Byte) (offset stride w h fc oc : Nat) (flip alpha : Bool)
    (hw : w * 4 < 2147483648) (hh : h * 4 < 2147483648) (ha : w * h < 2147483648)
    (hfc : fc = if alpha then 4 else 3) (hoc : oc = if alpha then 4 else 3)
    (hstride : w * fc ≤ stride) (hsize : offset + stride * h ≤ d.length) :
    ∃ moves data, mapRes (pixelMoves offset stride w h fc oc flip alpha) (grid w h) = .ok moves ∧
      copyLoop d moves.flatten (List.replicate (w * h * oc) 0) = .ok data ∧ data.length = w * h * oc ∧
      ∀ x y c, x < w → y < h → c < oc →
        data[(y * w + x) * oc + c]? = d[offset + (if flip then h - 1 - y else y) * stride + x * fc +
          (if c = 3 then 3 else 2 - c)]? := by
  have hfc4 : fc ≤ 4 := by rw [hfc]; split <;> omega
  have hm := mapRes_ok (pixelMoves offset stride w h fc oc flip alpha)
    (idealMoves offset stride w h fc oc flip alpha) (grid w h) (fun p hp => by
      obtain ⟨hx, hy⟩ := (mem_grid w h p).1 hp
      exact pixelMoves_ok offset stride w h fc oc flip alpha p hx hy hw hh ha hfc4)
  -- membership in the move list
  have hmem : ∀ m, m ∈ ((grid w h).map (idealMoves offset stride w h fc oc flip alpha)).flatten ↔
      ∃ x y c, x < w ∧ y < h ∧ c < oc ∧ m = ((y * w + x) * oc + c,
        offset + (if flip then h - 1 - y else y) * stride + x * fc + (if c = 3 then 3 else 2 - c)) := by
    intro m
    simp only [List.mem_flatten, List.mem_map]
    constructor
    · rintro ⟨l, ⟨p, hp, rfl⟩, hml⟩
      obtain ⟨hx, hy⟩ := (mem_grid w h p).1 hp
      unfold idealMoves at hml
      rw [List.mem_append] at hml
      rcases hml with hml | hml
      · simp only [List.mem_cons, List.not_mem_nil, or_false] at hml
        rcases hml with rfl | rfl | rfl
        · exact ⟨p.1, p.2, 0, hx, hy, by rw [hoc]; split <;> omega, by simp⟩
        · exact ⟨p.1, p.2, 1, hx, hy, by rw [hoc]; split <;> omega, by simp⟩
        · exact ⟨p.1, p.2, 2, hx, hy, by rw [hoc]; split <;> omega, by simp⟩
      · cases alpha with
        | false => simp at hml
        | true =>
          simp only [if_true, List.mem_cons, List.not_mem_nil, or_false] at hml
          subst hml
          exact ⟨p.1, p.2, 3, hx, hy, by rw [hoc]; simp, by simp⟩
    · rintro ⟨x, y, c, hx, hy, hc, rfl⟩
      refine ⟨_, ⟨(x, y), (mem_grid w h (x, y)).2 ⟨hx, hy⟩, rfl⟩, ?_⟩
      unfold idealMoves
      rw [List.mem_append]
      have hc4 : c = 0 ∨ c = 1 ∨ c = 2 ∨ (c = 3 ∧ alpha = true) := by
        rw [hoc] at hc
        cases alpha <;> simp at hc ⊢ <;> omega
      rcases hc4 with rfl | rfl | rfl | ⟨rfl, rfl⟩
      · left; simp
      · left; simp
      · left; simp
      · right; simp
  obtain ⟨r, hr, hl, hv, _⟩ := copyLoop_spec d _ (List.replicate (w * h * oc) 0)
    (fun m hm => by
      obtain ⟨x, y, c, hx, hy, hc, rfl⟩ := (hmem m).1 hm
      simp only [List.length_replicate]
      refine ⟨pixel_index_lt w h oc x y c hx hy hc, ?_⟩
      have hsy : (if flip then h - 1 - y else y) + 1 ≤ h := by split <;> omega
      have h1 : ((if flip then h - 1 - y else y) + 1) * stride ≤ h * stride := Nat.mul_le_mul_right _ hsy
      rw [Nat.succ_mul, Nat.mul_comm h stride] at h1
      have h2 : (x + 1) * fc ≤ w * fc := Nat.mul_le_mul_right _ hx
      rw [Nat.succ_mul] at h2
      have h3 : (if c = 3 then 3 else 2 - c) < fc := by
        rw [hfc]
        rw [hoc] at hc
        cases alpha <;> simp at hc ⊢ <;> split <;> omega
      omega)
    (fun m hm m' hm' he => by
      obtain ⟨x, y, c, hx, hy, hc, rfl⟩ := (hmem m).1 hm
      obtain ⟨x', y', c', hx', hy', hc', rfl⟩ := (hmem m').1 hm'
      obtain ⟨rfl, rfl, rfl⟩ := pixel_index_inj w oc x y c x' y' c' hx hx' hc hc' he
      rfl)
  refine ⟨_, r, hm, hr, by simpa using hl, ?_⟩
  intro x y c hx hy hc
  exact hv _ ((hmem _).2 ⟨x, y, c, hx, hy, hc, rfl⟩)

theorem byteAt_lt (d : List Byte) (i : Nat) : byteAt d i < 256 := by
  unfold byteAt; exact UInt8.toNat_lt _

theorem le32_lt (d : List Byte) (i : Nat) : le32 d i < 4294967296 := by
  unfold le32 le16
  have h0 := byteAt_lt d i
  have h1 := byteAt_lt d (i + 1)
  have h2 := byteAt_lt d (i + 2)
  have h3 := byteAt_lt d (i + 2 + 1)
  omega

/-- `size_t` view of products of moderate non-negative `int`s. -/
theorem toSizeT_nat (n : Nat) (h : n < 18446744073709551616) : toSizeT (n : Int) = n := by
  rw [toSizeT_nonneg _ (by omega) (by omega)]; exact Int.toNat_natCast _

theorem i32_nat_mul (a b : Nat) (h : a * b < 2147483648) : i32 ((a : Int) * (b : Int)) = .ok ((a * b : Nat) : Int) := by
  rw [← Int.natCast_mul]
  exact i32_ok _ (by omega)

theorem absHeight_ok (H : Int) (hl : -2147483648 < H * 4) (hh : H * 4 < 2147483648) :
    absHeight H = .ok ((H.natAbs : Nat) : Int) := by
  unfold absHeight
  split
  · rename_i h
    have : ((H.natAbs : Nat) : Int) = H := by omega
    rw [this]
  · rename_i h
    have : ((H.natAbs : Nat) : Int) = -H := by omega
    rw [i32_ok _ (by omega), this]

/-- `decode` for a non-negative moderate width. -/
theorem decode_nonneg (maxAlloc : Nat) (d : List Byte) (O w : Nat) (H : Int) (B : Nat) (hb : B = 24 ∨ B = 32)
    (hO : O < 4294967296) (hw : w * 4 < 2147483648) (hl : -2147483648 < H * 4) (hh : H * 4 < 2147483648)
    (area : w * H.natAbs < 2147483648) :
    let S := (w * (B / 8) + 3) / 4 * 4
    let h := H.natAbs
    (decode maxAlloc d O w H B = .throw ∧ (d.length < O + S * h ∨ maxAlloc < w * h * (B / 8))) ∨
    ∃ data, decode maxAlloc d O w H B = .ok ⟨w, h, B / 8, decide (B = 32), data⟩ ∧ O + S * h ≤ d.length ∧
      ∀ x y c, x < w → y < h → c < B / 8 →
        data[(y * w + x) * (B / 8) + c]? = d[O + (if H > 0 then h - 1 - y else y) * S + x * (B / 8) +
          (if c = 3 then 3 else 2 - c)]? := by
  intro S h
  have hoc : (if B = 32 then 4 else 3) = B / 8 := by rcases hb with rfl | rfl <;> rfl
  have hB4 : B / 8 = 3 ∨ B / 8 = 4 := by rcases hb with rfl | rfl <;> simp
  have hwfc : w * (B / 8) < 2147483648 := by rcases hB4 with e | e <;> rw [e] <;> omega
  have hhn : h * 4 < 2147483648 := by omega
  have hhfc : h * (B / 8) < 2147483648 := by rcases hB4 with e | e <;> rw [e] <;> omega
  have hS : S * h ≤ 2147483651 * 536870912 := by
    apply Nat.mul_le_mul <;> omega
  have hA : w * h * (B / 8) ≤ w * h * 4 := Nat.mul_le_mul_left _ (by omega)
  have area' : w * h < 2147483648 := area
  unfold decode
  rw [absHeight_ok H hl hh, Res.ok_bind]
  simp only
  rw [i32_nat_mul w (B / 8) hwfc, Res.ok_bind, hoc]
  rw [toSizeT_nat _ (by omega), Nat.mod_eq_of_lt (show w * (B / 8) + 3 < 18446744073709551616 by omega)]
  rw [toSizeT_nat h (by omega), show (w * (B / 8) + 3) / 4 * 4 = S from rfl,
    Nat.mod_eq_of_lt (show O + S * h < 18446744073709551616 by omega)]
  by_cases h1 : d.length < O + S * h
  · left
    rw [if_pos h1]
    exact ⟨rfl, Or.inl h1⟩
  rw [if_neg h1, i32_nat_mul h (B / 8) hhfc, Res.ok_bind]
  rw [toSizeT_nat w (by omega), toSizeT_nat (h * (B / 8)) (by omega), ← Nat.mul_assoc,
    Nat.mod_eq_of_lt (show w * h * (B / 8) < 18446744073709551616 by omega)]
  by_cases h2 : w * h * (B / 8) > maxAlloc
  · left
    rw [if_pos h2]
    exact ⟨rfl, Or.inr h2⟩
  rw [if_neg h2]
  right
  obtain ⟨moves, data, hm, hc, hlen, hpix⟩ := decode_ok d O S w h (B / 8) (B / 8) (decide (H > 0)) (decide (B = 32))
    hw hhn area' (by rcases hb with rfl | rfl <;> rfl) (by rcases hb with rfl | rfl <;> rfl)
    (by show w * (B / 8) ≤ (w * (B / 8) + 3) / 4 * 4; omega) (by omega)
  rw [Int.toNat_natCast, Int.toNat_natCast, hm, Res.ok_bind, hc, Res.ok_bind]
  refine ⟨data, rfl, by omega, ?_⟩
  intro x y c hx hy hc
  have := hpix x y c hx hy hc
  simp only [decide_eq_true_eq] at this
  exact this

/-- `decode` for a negative moderate width: the loops run zero times. -/
theorem decode_neg (maxAlloc : Nat) (d : List Byte) (O : Nat) (W H : Int) (B : Nat) (hb : B = 24 ∨ B = 32)
    (hneg : W < 0) (hw : -2147483648 ≤ W * 4) (hl : -2147483648 < H * 4) (hh : H * 4 < 2147483648) :
    decode maxAlloc d O W H B = .throw ∨
    ∃ data, decode maxAlloc d O W H B = .ok ⟨W, H.natAbs, B / 8, decide (B = 32), data⟩ := by
  have hoc : (if B = 32 then 4 else 3) = B / 8 := by rcases hb with rfl | rfl <;> rfl
  have hB4 : B / 8 = 3 ∨ B / 8 = 4 := by rcases hb with rfl | rfl <;> simp
  unfold decode
  rw [absHeight_ok H hl hh, Res.ok_bind]
  simp only
  have hwc : i32 (W * ((B / 8 : Nat) : Int)) = .ok (W * ((B / 8 : Nat) : Int)) := by
    apply i32_ok
    rcases hB4 with e | e <;> rw [e] <;> omega
  have hhfc : H.natAbs * (B / 8) < 2147483648 := by rcases hB4 with e | e <;> rw [e] <;> omega
  rw [hwc, Res.ok_bind, hoc]
  split
  · left; rfl
  rw [i32_nat_mul _ (B / 8) hhfc, Res.ok_bind]
  split
  · left; rfl
  have hg : grid W.toNat ((H.natAbs : Nat) : Int).toNat = [] := by
    apply List.eq_nil_iff_forall_not_mem.2
    intro p hp
    have := ((mem_grid _ _ p).1 hp).1
    omega
  rw [hg]
  right
  exact ⟨_, rfl⟩

/-- The whole reader on moderate sizes: never undefined, and what a successful read returns. -/
theorem readRaw_spec (maxAlloc : Nat) (d : List Byte) (hmod : Moderate d) :
    readRaw maxAlloc d = .throw ∨ ∃ r, readRaw maxAlloc d = .ok r ∧ r.width = hdrWidth d ∧
      r.height = (hdrHeight d).natAbs ∧ (hdrBpp d = 24 ∨ hdrBpp d = 32) ∧ r.channels = hdrBpp d / 8 ∧
      (0 ≤ hdrWidth d → hdrOffset d + rowBytes d * (hdrHeight d).natAbs ≤ d.length ∧
      ∀ x y c, x < (hdrWidth d).toNat → y < (hdrHeight d).natAbs → c < r.channels →
        r.channel x y c = d[hdrOffset d + (if hdrHeight d > 0 then (hdrHeight d).natAbs - 1 - y else y) * rowBytes d +
          x * (hdrBpp d / 8) + (if c = 3 then 3 else 2 - c)]?) := by
  obtain ⟨wl, wh, hl, hh, area⟩ := hmod
  unfold readRaw
  split
  · left; rfl
  split
  · left; rfl
  split
  · left; rfl
  split
  · left; rfl
  split
  · left; rfl
  split
  · left; rfl
  rename_i hbpp
  have hb : hdrBpp d = 24 ∨ hdrBpp d = 32 := by unfold hdrBpp; omega
  have hO : hdrOffset d < 4294967296 := le32_lt d 10
  show decode maxAlloc d (hdrOffset d) (hdrWidth d) (hdrHeight d) (hdrBpp d) = .throw ∨ _
  by_cases hneg : 0 ≤ hdrWidth d
  · obtain ⟨w, hw⟩ := Int.eq_ofNat_of_zero_le hneg
    have hrow : rowBytes d = (w * (hdrBpp d / 8) + 3) / 4 * 4 := by unfold rowBytes; rw [hw]; rfl
    rw [hw] at wh area
    rcases decode_nonneg maxAlloc d (hdrOffset d) w (hdrHeight d) (hdrBpp d) hb hO (by omega) hl hh
      (by rw [← Int.natCast_mul] at area; omega) with h1 | ⟨data, h1, h2, h3⟩
    · left; rw [hw]; exact h1.1
    · right
      have h1' : decode maxAlloc d (hdrOffset d) (hdrWidth d) (hdrHeight d) (hdrBpp d) =
          .ok ⟨w, (hdrHeight d).natAbs, hdrBpp d / 8, decide (hdrBpp d = 32), data⟩ := by rw [hw]; exact h1
      refine ⟨_, h1', hw.symm, rfl, hb, rfl, fun _ => ⟨by rw [hrow]; exact h2, ?_⟩⟩
      intro x y c hx hy hc
      rw [hrow]
      exact h3 x y c (by omega) hy hc
  · rcases decode_neg maxAlloc d (hdrOffset d) (hdrWidth d) (hdrHeight d) (hdrBpp d) hb (by omega) wl hl hh with h1 | ⟨data, h1⟩
    · left; exact h1
    · right
      exact ⟨_, h1, rfl, rfl, hb, rfl, fun h => absurd h hneg⟩

/-- **C21 (partial).** For every byte string whose header sizes stay within `int` (`Moderate`; negative widths
included) the reader throws or returns: it never reads outside the data or writes outside its buffer. -/
theorem C21_safe_partial (maxAlloc : Nat) (d : List Byte) (hmod : Moderate d) : readRaw maxAlloc d ≠ .ub := by
  rcases readRaw_spec maxAlloc d hmod with h | ⟨r, h, _⟩ <;> rw [h] <;> simp

/-- **C21 (partial).** ... and every returned pixel byte was read inside the supplied data. -/
theorem C21_pixels_inside_partial (maxAlloc : Nat) (d : List Byte) (hmod : Moderate d) (r : Raw)
    (h : readRaw maxAlloc d = .ok r) (x y c : Nat) (hx : x < r.width.toNat) (hy : y < r.height.toNat)
    (hc : c < r.channels) : ∃ i, ∃ hi : i < d.length, r.channel x y c = some d[i] := by
  rcases readRaw_spec maxAlloc d hmod with h' | ⟨r', h', hW, hH, hb, hch, hp⟩
  · rw [h'] at h; simp at h
  · rw [h] at h'
    injection h' with h'
    subst h'
    rw [hW] at hx
    rw [hH] at hy
    obtain ⟨hsz, hpix⟩ := hp (by omega)
    rw [Int.toNat_natCast] at hy
    rw [hpix x y c hx hy hc]
    refine ⟨_, ?_, List.getElem?_eq_getElem _⟩
    have hsy : (if hdrHeight d > 0 then (hdrHeight d).natAbs - 1 - y else y) + 1 ≤ (hdrHeight d).natAbs := by
      split <;> omega
    have h1 := Nat.mul_le_mul_right (rowBytes d) hsy
    rw [Nat.succ_mul, Nat.mul_comm _ (rowBytes d)] at h1
    rw [Nat.mul_comm (hdrHeight d).natAbs] at h1
    have h2 : (x + 1) * (hdrBpp d / 8) ≤ (hdrWidth d).toNat * (hdrBpp d / 8) := Nat.mul_le_mul_right _ hx
    rw [Nat.succ_mul] at h2
    have h3 : (hdrWidth d).toNat * (hdrBpp d / 8) ≤ rowBytes d := by unfold rowBytes; omega
    have h4 : (if c = 3 then 3 else 2 - c) < hdrBpp d / 8 := by
      rw [hch] at hc
      rcases hb with e | e <;> rw [e] at hc ⊢ <;> split <;> omega
    rw [Nat.mul_comm (rowBytes d)] at h1
    omega

/-- **C27.** Placement: for every file with moderate sizes that is read, pixel `(x, y)` (row 0 on top) has as
red/green/blue(/alpha) the bytes 2/1/0(/3) of file pixel `x` in stored row `height-1-y` (positive header height) or
`y` (negative), with rows padded to multiples of four bytes. -/
theorem C27_placement (maxAlloc : Nat) (d : List Byte) (hmod : Moderate d) (r : Raw)
    (h : readRaw maxAlloc d = .ok r) (hw : 0 ≤ hdrWidth d) :
    r.width = hdrWidth d ∧ r.height = (hdrHeight d).natAbs ∧ r.channels = hdrBpp d / 8 ∧
    ∀ x y, x < (hdrWidth d).toNat → y < (hdrHeight d).natAbs →
      let row := if hdrHeight d > 0 then (hdrHeight d).natAbs - 1 - y else y
      let base := hdrOffset d + row * rowBytes d + x * (hdrBpp d / 8)
      r.channel x y 0 = d[base + 2]? ∧ r.channel x y 1 = d[base + 1]? ∧ r.channel x y 2 = d[base]? ∧
      (hdrBpp d = 32 → r.channel x y 3 = d[base + 3]?) := by
  rcases readRaw_spec maxAlloc d hmod with h' | ⟨r', h', hW, hH, hb, hch, hp⟩
  · rw [h'] at h; simp at h
  · rw [h] at h'
    injection h' with h'
    subst h'
    refine ⟨hW, hH, hch, ?_⟩
    intro x y hx hy row base
    have hpix := (hp hw).2
    have h3 : 3 ≤ r.channels := by rw [hch]; omega
    refine ⟨hpix x y 0 hx hy (by omega), hpix x y 1 hx hy (by omega), hpix x y 2 hx hy (by omega), ?_⟩
    intro h32
    exact hpix x y 3 hx hy (by rw [hch, h32]; decide)

/-- **C27.** A file with a good signature, 24/32 bits, no compression and all announced data present is read. -/
theorem C27_accepts (maxAlloc : Nat) (d : List Byte) (hlen : 54 ≤ d.length) (hsig : d.take 2 = [0x42, 0x4D])
    (hdib : le32 d 14 = 40) (hbpp : hdrBpp d = 24 ∨ hdrBpp d = 32) (hcomp : le32 d 30 = 0)
    (hmod : Moderate d) (hw : 0 ≤ hdrWidth d)
    (hdata : hdrOffset d + rowBytes d * (hdrHeight d).natAbs ≤ d.length)
    (halloc : (hdrWidth d).toNat * (hdrHeight d).natAbs * (hdrBpp d / 8) ≤ maxAlloc) :
    ∃ r, readRaw maxAlloc d = .ok r := by
  have hs : ¬ (byteAt d 0 ≠ 0x42 ∨ byteAt d 1 ≠ 0x4D) := by
    rcases d with _ | ⟨a, _ | ⟨b, t⟩⟩
    · simp at hlen
    · simp at hlen
    · simp at hsig
      simp [byteAt, hsig.1, hsig.2]
  obtain ⟨wl, wh, hl, hh, area⟩ := hmod
  obtain ⟨w, hw'⟩ := Int.eq_ofNat_of_zero_le hw
  have hrow : rowBytes d = (w * (hdrBpp d / 8) + 3) / 4 * 4 := by unfold rowBytes; rw [hw']; rfl
  have hwn : (hdrWidth d).toNat = w := by rw [hw']; rfl
  rw [hw'] at wh area
  rw [hwn] at halloc
  rw [hrow] at hdata
  have e : readRaw maxAlloc d = decode maxAlloc d (hdrOffset d) w (hdrHeight d) (hdrBpp d) := by
    unfold readRaw
    rw [if_neg (by omega), if_neg hs, hdib, if_neg (by omega), if_neg (by omega), hcomp, if_neg (by omega),
      if_neg (by unfold hdrBpp at hbpp; omega)]
    rw [← hw']; rfl
  rw [e]
  rcases decode_nonneg maxAlloc d (hdrOffset d) w (hdrHeight d) (hdrBpp d) hbpp (le32_lt d 10) (by omega) hl hh
      (by rw [← Int.natCast_mul] at area; omega) with h1 | ⟨data, h1, _⟩
  · exfalso; omega
  · exact ⟨_, h1⟩

/-- Non-vacuity: a 2x2 24-bit bottom-up file with padded rows is moderate and decodes as stated. -/
def demo : List Byte := header [2, 0, 0, 0] [2, 0, 0, 0] 24 ++ [1, 2, 3, 4, 5, 6, 0, 0, 7, 8, 9, 10, 11, 12, 0, 0]
example : Moderate demo := ⟨by decide, by decide, by decide, by decide, by decide⟩
example : readRaw 1000 demo = .ok ⟨2, 2, 3, false, [9, 8, 7, 12, 11, 10, 3, 2, 1, 6, 5, 4]⟩ := by rfl

end Huira.ImageIO.Bmp
