import Verif.ImageIO.Hdr
import Mathlib.Tactic.Linarith
import Mathlib.Tactic.Ring
import Mathlib.Tactic.NormNum
import Mathlib.Tactic.Positivity
import Mathlib.Algebra.Order.Field.Power
import Mathlib.Tactic.FieldSimp
/-! # HDR properties C23, C24, C74 -/
set_option linter.unusedSimpArgs false
namespace Huira.ImageIO.Hdr

theorem put_ok (scan : List Byte) (i : Nat) (v : Byte) (h : i < scan.length) : put scan i v = .ok (scan.set i v) := by
  unfold put; rw [if_pos h]

theorem set_get (s : List Byte) (j : Nat) (v : Byte) (hj : j < s.length) (i : Nat) :
    (s.set j v)[i]? = if i = j then some v else s[i]? := by
  by_cases h : i = j
  · subst h; rw [if_pos rfl, List.getElem?_set_self hj]
  · rw [if_neg h, List.getElem?_set_ne (fun e => h e.symm)]

theorem runLoop_spec (w ch : Nat) (hch : ch < 4) (v : Byte) : ∀ (k pos : Nat) (scan : List Byte),
    scan.length = w * 4 → pos ≤ w →
    ∃ s, runLoop w ch v k pos scan = .ok (min (pos + k) w, s) ∧ s.length = w * 4 ∧
      ∀ i, s[i]? = if i % 4 = ch ∧ pos ≤ i / 4 ∧ i / 4 < min (pos + k) w then some v else scan[i]?
  | 0, pos, scan, hl, hp => by
    refine ⟨scan, ?_, hl, ?_⟩
    · unfold runLoop; rw [Nat.add_zero, Nat.min_eq_left hp]
    · intro i; rw [if_neg (by omega)]
  | k + 1, pos, scan, hl, hp => by
    unfold runLoop
    by_cases h : pos < w
    · rw [if_pos h, put_ok _ _ _ (by omega), Res.ok_bind]
      obtain ⟨s, hs, hsl, hsi⟩ := runLoop_spec w ch hch v k (pos + 1) (scan.set (pos * 4 + ch) v)
        (by rw [List.length_set]; exact hl) (by omega)
      refine ⟨s, ?_, hsl, ?_⟩
      · rw [hs]; congr 2; omega
      · intro i
        rw [hsi i, set_get _ _ _ (by omega)]
        by_cases h1 : i = pos * 4 + ch
        · rw [if_pos h1]
          have : i % 4 = ch ∧ pos ≤ i / 4 ∧ i / 4 < min (pos + (k + 1)) w := by omega
          rw [if_pos this]; split <;> rfl
        · rw [if_neg h1]
          by_cases h2 : i % 4 = ch ∧ pos ≤ i / 4 ∧ i / 4 < min (pos + (k + 1)) w
          · rw [if_pos h2, if_pos (by omega)]
          · rw [if_neg h2, if_neg (by omega)]
    · rw [if_neg h]
      refine ⟨scan, ?_, hl, ?_⟩
      · have : min (pos + (k + 1)) w = pos := by omega
        rw [this]
      · intro i; rw [if_neg (by omega)]

theorem litLoop_spec (w ch : Nat) (hch : ch < 4) : ∀ (k pos : Nat) (scan rest : List Byte),
    scan.length = w * 4 → pos ≤ w →
    (litLoop w ch k pos scan rest = .throw ∧ rest.length < min k (w - pos)) ∨
    ∃ s, litLoop w ch k pos scan rest = .ok (min (pos + k) w, s, rest.drop (min k (w - pos))) ∧ s.length = w * 4 ∧
      min k (w - pos) ≤ rest.length ∧
      ∀ i, s[i]? = if i % 4 = ch ∧ pos ≤ i / 4 ∧ i / 4 < min (pos + k) w then rest[i / 4 - pos]? else scan[i]?
  | 0, pos, scan, rest, hl, hp => by
    right
    refine ⟨scan, ?_, hl, by omega, ?_⟩
    · unfold litLoop; rw [Nat.add_zero, Nat.min_eq_left hp]; simp
    · intro i; rw [if_neg (by omega)]
  | k + 1, pos, scan, rest, hl, hp => by
    unfold litLoop
    by_cases h : pos < w
    · rw [if_pos h]
      cases rest with
      | nil => left; exact ⟨rfl, by simp; omega⟩
      | cons v t =>
        simp only
        rw [put_ok _ _ _ (by omega), Res.ok_bind]
        rcases litLoop_spec w ch hch k (pos + 1) (scan.set (pos * 4 + ch) v) t
          (by rw [List.length_set]; exact hl) (by omega) with ⟨h1, h2⟩ | ⟨s, hs, hsl, hlen, hsi⟩
        · left; exact ⟨h1, by simp only [List.length_cons]; omega⟩
        · right
          have e : min (k + 1) (w - pos) = min k (w - (pos + 1)) + 1 := by omega
          refine ⟨s, ?_, hsl, by simp only [List.length_cons]; omega, ?_⟩
          · rw [hs, e, List.drop_succ_cons]
            have e2 : min (pos + 1 + k) w = min (pos + (k + 1)) w := by omega
            rw [e2]
          · intro i
            rw [hsi i, set_get _ _ _ (by omega)]
            by_cases h1 : i = pos * 4 + ch
            · rw [if_pos h1]
              have h3 : i % 4 = ch ∧ pos ≤ i / 4 ∧ i / 4 < min (pos + (k + 1)) w := by omega
              have h4 : ¬ (i % 4 = ch ∧ pos + 1 ≤ i / 4 ∧ i / 4 < min (pos + 1 + k) w) := by omega
              have h5 : i / 4 - pos = 0 := by omega
              rw [if_pos h3, if_neg h4, h5]; rfl
            · rw [if_neg h1]
              by_cases h2 : i % 4 = ch ∧ pos ≤ i / 4 ∧ i / 4 < min (pos + (k + 1)) w
              · have h5 : i / 4 - pos = (i / 4 - (pos + 1)) + 1 := by omega
                rw [if_pos h2, if_pos (by omega), h5, List.getElem?_cons_succ]
              · rw [if_neg h2, if_neg (by omega)]
    · rw [if_neg h]
      right
      have e1 : min (pos + (k + 1)) w = pos := by omega
      have e2 : min (k + 1) (w - pos) = 0 := by omega
      refine ⟨scan, by rw [e1, e2]; rfl, hl, by omega, ?_⟩
      intro i; rw [if_neg (by omega)]

/-- Never undefined; on success the scanline keeps its size and no bytes are invented. -/
theorem chanLoop_safe (w ch : Nat) (hch : ch < 4) : ∀ (fuel pos : Nat) (scan rest : List Byte),
    scan.length = w * 4 → pos ≤ w → rest.length < fuel →
    chanLoop w ch fuel pos scan rest = .throw ∨
    ∃ s t, chanLoop w ch fuel pos scan rest = .ok (s, t) ∧ s.length = w * 4 ∧ ∃ k, t = rest.drop k
  | 0, _, _, _, _, _, h => by omega
  | fuel + 1, pos, scan, rest, hl, hp, hf => by
    unfold chanLoop
    by_cases h : w ≤ pos
    · rw [if_pos h]; right; exact ⟨scan, rest, rfl, hl, 0, rfl⟩
    rw [if_neg h]
    cases rest with
    | nil => left; rfl
    | cons b t =>
      simp only [List.length_cons] at hf
      simp only
      by_cases hb : 128 < b.toNat
      · rw [if_pos hb]
        cases t with
        | nil => left; rfl
        | cons v t' =>
          simp only [List.length_cons] at hf
          simp only
          obtain ⟨s, hs, hsl, _⟩ := runLoop_spec w ch hch v (b.toNat - 128) pos scan hl hp
          rw [hs, Res.ok_bind]
          rcases chanLoop_safe w ch hch fuel (min (pos + (b.toNat - 128)) w) s t' hsl (by omega) (by omega) with
            h1 | ⟨s', r, h1, h2, k, hk⟩
          · left; exact h1
          · right; exact ⟨s', r, h1, h2, k + 2, by rw [hk]; rfl⟩
      · rw [if_neg hb]
        rcases litLoop_spec w ch hch b.toNat pos scan t hl hp with ⟨h1, _⟩ | ⟨s, hs, hsl, hlen, _⟩
        · left; rw [h1]; rfl
        · rw [hs, Res.ok_bind]
          rcases chanLoop_safe w ch hch fuel (min (pos + b.toNat) w) s (t.drop (min b.toNat (w - pos))) hsl (by omega)
            (by rw [List.length_drop]; omega) with h1 | ⟨s', r, h1, h2, k, hk⟩
          · left; exact h1
          · right
            refine ⟨s', r, h1, h2, min b.toNat (w - pos) + k + 1, ?_⟩
            rw [hk, List.drop_drop, List.drop_succ_cons]

theorem scanLine_safe (w : Nat) (hw : 0 < w) (scan rest : List Byte) (hl : scan.length = w * 4) :
    scanLine w scan rest = .throw ∨
    ∃ s t, scanLine w scan rest = .ok (s, t) ∧ s.length = w * 4 ∧ ∃ k, t = rest.drop k := by
  unfold scanLine
  split
  · rename_i h0 h1 h2 h3 t
    by_cases hn : h0.toNat = 2 ∧ h1.toNat = 2 ∧ h2.toNat * 256 + h3.toNat = w
    · rw [if_pos hn]
      rcases chanLoop_safe w 0 (by omega) (t.length + 1) 0 scan t hl (by omega) (by omega) with e | ⟨s0, t0, e, l0, k0, hk0⟩
      · left; rw [e]; rfl
      rw [e, Res.ok_bind]
      simp only
      rcases chanLoop_safe w 1 (by omega) (t0.length + 1) 0 s0 t0 l0 (by omega) (by omega) with e | ⟨s1, t1, e, l1, k1, hk1⟩
      · left; rw [e]; rfl
      rw [e, Res.ok_bind]
      simp only
      rcases chanLoop_safe w 2 (by omega) (t1.length + 1) 0 s1 t1 l1 (by omega) (by omega) with e | ⟨s2, t2, e, l2, k2, hk2⟩
      · left; rw [e]; rfl
      rw [e, Res.ok_bind]
      simp only
      rcases chanLoop_safe w 3 (by omega) (t2.length + 1) 0 s2 t2 l2 (by omega) (by omega) with e | ⟨s3, t3, e, l3, k3, hk3⟩
      · left; exact e
      right
      refine ⟨s3, t3, e, l3, 4 + (k0 + (k1 + (k2 + k3))), ?_⟩
      rw [hk3, hk2, hk1, hk0, List.drop_drop, List.drop_drop, List.drop_drop, Nat.add_comm 4]
      rfl
    · rw [if_neg hn, put_ok _ _ _ (by omega), Res.ok_bind, put_ok _ _ _ (by rw [List.length_set]; omega), Res.ok_bind,
        put_ok _ _ _ (by rw [List.length_set, List.length_set]; omega), Res.ok_bind,
        put_ok _ _ _ (by rw [List.length_set, List.length_set, List.length_set]; omega), Res.ok_bind]
      obtain ⟨s, hs⟩ : ∃ s, s = (((scan.set 0 h0).set 1 h1).set 2 h2).set 3 h3 := ⟨_, rfl⟩
      have hsl : s.length = w * 4 := by rw [hs]; simp only [List.length_set]; exact hl
      rw [← hs]
      by_cases h1w : 1 < w
      · rw [if_pos h1w]
        by_cases ht : t.length < (w - 1) * 4
        · left; simp only; rw [if_pos ht]
        right
        simp only
        rw [if_neg ht, if_neg (by omega)]
        refine ⟨_, _, rfl, ?_, 4 + (w - 1) * 4, ?_⟩
        · simp only [List.length_append, List.length_take, List.length_drop]; omega
        · rw [← List.drop_drop]; rfl
      · rw [if_neg h1w]
        right
        exact ⟨s, t, rfl, hsl, 4, rfl⟩
  · left; rfl

theorem mapRes_length {α β : Type} (f : α → Res β) : ∀ (l : List α) (r : List β), mapRes f l = .ok r → r.length = l.length
  | [], r, h => by
    unfold mapRes at h; injection h with h; subst h; rfl
  | a :: l, r, h => by
    unfold mapRes at h
    rw [Res.bind_ok_iff] at h
    obtain ⟨b, _, h⟩ := h
    rw [Res.bind_ok_iff] at h
    obtain ⟨bs, h1, h⟩ := h
    injection h with h
    subst h
    simp [mapRes_length f l bs h1]

/-- The four bytes of pixel `x` of a scanline that is long enough. -/
def px4 (s : List Byte) (x : Nat) : Byte × Byte × Byte × Byte :=
  ((s[x * 4]?).getD 0, (s[x * 4 + 1]?).getD 0, (s[x * 4 + 2]?).getD 0, (s[x * 4 + 3]?).getD 0)

theorem pixelAt_ok (s : List Byte) (x : Nat) (h : x * 4 + 3 < s.length) : pixelAt s x = .ok (px4 s x) := by
  unfold pixelAt px4
  rw [List.getElem?_eq_getElem (show x * 4 < s.length by omega),
    List.getElem?_eq_getElem (show x * 4 + 1 < s.length by omega),
    List.getElem?_eq_getElem (show x * 4 + 2 < s.length by omega), List.getElem?_eq_getElem h]
  rfl

theorem pixels_ok (w : Nat) (s : List Byte) (h : s.length = w * 4) :
    mapRes (pixelAt s) (List.range w) = .ok ((List.range w).map (px4 s)) := by
  apply mapRes_ok
  intro x hx
  rw [List.mem_range] at hx
  exact pixelAt_ok s x (by omega)

theorem rows_safe (w : Nat) (hw : 0 < w) : ∀ (h : Nat) (scan rest : List Byte), scan.length = w * 4 →
    rows w h scan rest = .throw ∨ ∃ px, rows w h scan rest = .ok px ∧ px.length = h * w
  | 0, scan, rest, _ => by right; exact ⟨[], rfl, by simp⟩
  | h + 1, scan, rest, hl => by
    unfold rows
    rcases scanLine_safe w hw scan rest hl with e | ⟨s, t, e, hsl, _⟩
    · left; rw [e]; rfl
    rw [e, Res.ok_bind]
    simp only
    rw [pixels_ok w s hsl, Res.ok_bind]
    rcases rows_safe w hw h s t hsl with e2 | ⟨px, e2, hpx⟩
    · left; rw [e2]; rfl
    right
    rw [e2, Res.ok_bind]
    refine ⟨_, rfl, ?_⟩
    rw [List.length_append, List.length_map, List.length_range, hpx, Nat.succ_mul]; omega

theorem readRaw_shape (maxAlloc : Nat) (tok : List Byte → Option (Int × List Byte × Int)) (d : List Byte) :
    readRaw maxAlloc tok d = .throw ∨ ∃ i, readRaw maxAlloc tok d = .ok i ∧
      i.pixels.length = i.width * i.height ∧ 0 < i.width ∧ 0 < i.height := by
  unfold readRaw
  split
  · left; rfl
  split
  · left; rfl
  split
  · left; rfl
  split
  · left; rfl
  split
  · left; rfl
  rename_i w hh _ _
  split
  · left; rfl
  rcases rows_safe w.toNat (by omega) hh.toNat (List.replicate (w.toNat * 4) 0) _ (List.length_replicate ..) with
    e | ⟨px, e, hpx⟩
  · left; rw [e]; rfl
  · right
    rw [e]
    exact ⟨_, rfl, by rw [hpx, Nat.mul_comm], by show 0 < w.toNat; omega, by show 0 < hh.toNat; omega⟩

/-- **C23.** For every byte string (and whatever the stream parser makes of the resolution line) the reader never
leaves the input or the scanline buffer. -/
theorem C23_safe (maxAlloc : Nat) (tok : List Byte → Option (Int × List Byte × Int)) (d : List Byte) :
    readRaw maxAlloc tok d ≠ .ub := by
  rcases readRaw_shape maxAlloc tok d with h | ⟨i, h, _⟩ <;> rw [h] <;> simp

/-- **C23.** What it returns has exactly `width * height` pixels, both positive. -/
theorem C23_size (maxAlloc : Nat) (tok : List Byte → Option (Int × List Byte × Int)) (d : List Byte) (i : Image)
    (h : readRaw maxAlloc tok d = .ok i) : i.pixels.length = i.width * i.height ∧ 0 < i.width ∧ 0 < i.height ∧
      ∀ x y, x < i.width → y < i.height → (i.color x y).isSome := by
  rcases readRaw_shape maxAlloc tok d with h' | ⟨j, h', hj, hw, hh⟩
  · rw [h'] at h; simp at h
  · rw [h] at h'
    injection h' with h'
    subst h'
    refine ⟨hj, hw, hh, fun x y hx hy => ?_⟩
    unfold Image.color
    have : y * i.width + x < i.pixels.length := by
      have := pixel_index_lt i.width i.height 1 x y 0 hx hy (by omega)
      rw [hj]; omega
    rw [List.getElem?_eq_getElem this]; rfl

/-- **C23.** Data cut short anywhere in the pixel section is refused: a successful read of `h` scanlines consumed at
least four bytes per scanline. -/
theorem scanLine_progress (w : Nat) (scan rest s t : List Byte) (h : scanLine w scan rest = .ok (s, t)) :
    4 ≤ rest.length := by
  unfold scanLine at h
  split at h
  · simp
  · simp at h

/-! ## C24: run-length decoding inverts encoding -/

/-- A packet of one channel: `run n v` or a literal list. -/
inductive Packet where
  | run (n : Nat) (v : Byte)
  | lit (vs : List Byte)
def Packet.WF : Packet → Prop
  | .run n _ => 1 ≤ n ∧ n ≤ 127
  | .lit vs => 1 ≤ vs.length ∧ vs.length ≤ 128
def Packet.values : Packet → List Byte
  | .run n v => List.replicate n v
  | .lit vs => vs
/-- Bytes in the file: 128 + n and the value, or the count and the values. -/
def Packet.encode : Packet → List Byte
  | .run n v => [UInt8.ofNat (128 + n), v]
  | .lit vs => UInt8.ofNat vs.length :: vs
def valuesOf (ps : List Packet) : List Byte := (ps.map Packet.values).flatten
def encodeAll (ps : List Packet) : List Byte := (ps.map Packet.encode).flatten

theorem ofNat_toNat (n : Nat) (h : n < 256) : (UInt8.ofNat n).toNat = n := by
  rw [UInt8.toNat_ofNat']; exact Nat.mod_eq_of_lt h

theorem chan_packets (w ch : Nat) (hch : ch < 4) (tail : List Byte) : ∀ (ps : List Packet) (fuel pos : Nat)
    (scan : List Byte), (∀ p ∈ ps, p.WF) → scan.length = w * 4 → pos + (valuesOf ps).length = w →
    (encodeAll ps ++ tail).length < fuel →
    ∃ s, chanLoop w ch fuel pos scan (encodeAll ps ++ tail) = .ok (s, tail.drop 0) ∧ s.length = w * 4 ∧
      ∀ i, s[i]? = if i % 4 = ch ∧ pos ≤ i / 4 ∧ i / 4 < w then (valuesOf ps)[i / 4 - pos]? else scan[i]?
  | ps, 0, _, _, _, _, _, hf => by omega
  | [], fuel + 1, pos, scan, _, hl, hn, _ => by
    simp [valuesOf] at hn
    unfold chanLoop
    rw [if_pos (by omega)]
    refine ⟨scan, rfl, hl, fun i => ?_⟩
    rw [if_neg (by omega)]
  | p :: ps, fuel + 1, pos, scan, hwf, hl, hn, hf => by
    have hp := hwf p (List.mem_cons_self ..)
    have hps : ∀ q ∈ ps, q.WF := fun q hq => hwf q (List.mem_cons_of_mem _ hq)
    have hv : valuesOf (p :: ps) = p.values ++ valuesOf ps := by simp [valuesOf]
    have he : encodeAll (p :: ps) = p.encode ++ encodeAll ps := by simp [encodeAll]
    rw [hv, List.length_append] at hn
    rw [he] at hf
    rw [hv, he]
    cases p with
    | run n v =>
      obtain ⟨h1, h2⟩ := hp
      simp only [Packet.values, List.length_replicate, Packet.encode, List.cons_append, List.nil_append,
        List.length_cons] at hn hf ⊢
      unfold chanLoop
      rw [if_neg (by omega)]
      simp only
      rw [ofNat_toNat _ (by omega), if_pos (by omega), show 128 + n - 128 = n by omega]
      obtain ⟨s, hs, hsl, hsi⟩ := runLoop_spec w ch hch v n pos scan hl (by omega)
      have hmin : min (pos + n) w = pos + n := by omega
      rw [hs, Res.ok_bind, hmin]
      rw [hmin] at hsi
      obtain ⟨s', h', hsl', hsi'⟩ := chan_packets w ch hch tail ps fuel (pos + n) s hps hsl (by omega) (by omega)
      refine ⟨s', h', hsl', fun i => ?_⟩
      rw [hsi' i, hsi i]
      by_cases hi : i % 4 = ch ∧ pos ≤ i / 4 ∧ i / 4 < w
      · rw [if_pos hi]
        by_cases hlt : i / 4 < pos + n
        · rw [if_neg (by omega), if_pos (by omega), List.getElem?_append_left (by rw [List.length_replicate]; omega),
            List.getElem?_replicate, if_pos (by omega)]
        · rw [if_pos (by omega), List.getElem?_append_right (by rw [List.length_replicate]; omega),
            List.length_replicate]
          congr 1; omega
      · rw [if_neg hi, if_neg (by omega), if_neg (by omega)]
    | lit vs =>
      obtain ⟨h1, h2⟩ := hp
      simp only [Packet.values, Packet.encode, List.cons_append, List.length_cons, List.length_append] at hn hf ⊢
      unfold chanLoop
      rw [if_neg (by omega)]
      simp only
      rw [ofNat_toNat _ (by omega), if_neg (by omega), List.append_assoc]
      have hmk : min vs.length (w - pos) = vs.length := by omega
      rcases litLoop_spec w ch hch vs.length pos scan (vs ++ (encodeAll ps ++ tail)) hl (by omega) with
        ⟨_, hbad⟩ | ⟨s, hs, hsl, _, hsi⟩
      · simp only [List.length_append] at hbad; omega
      have hmin : min (pos + vs.length) w = pos + vs.length := by omega
      rw [hs, Res.ok_bind, hmin, hmk]
      simp only [List.drop_left]
      rw [hmin] at hsi
      obtain ⟨s', h', hsl', hsi'⟩ := chan_packets w ch hch tail ps fuel (pos + vs.length) s hps hsl (by omega)
        (by rw [List.length_append]; omega)
      refine ⟨s', h', hsl', fun i => ?_⟩
      rw [hsi' i, hsi i]
      by_cases hi : i % 4 = ch ∧ pos ≤ i / 4 ∧ i / 4 < w
      · rw [if_pos hi]
        by_cases hlt : i / 4 < pos + vs.length
        · rw [if_neg (by omega), if_pos (by omega), List.getElem?_append_left (by omega),
            List.getElem?_append_left (by omega)]
        · rw [if_pos (by omega), List.getElem?_append_right (by omega)]
          congr 1; omega
      · rw [if_neg hi, if_neg (by omega), if_neg (by omega)]

/-- A scanline of `w` pixels given by its four channels, each cut into packets. -/
structure Line where
  r : List Packet
  g : List Packet
  b : List Packet
  e : List Packet

def Line.WF (w : Nat) (l : Line) : Prop :=
  (∀ p ∈ l.r, p.WF) ∧ (∀ p ∈ l.g, p.WF) ∧ (∀ p ∈ l.b, p.WF) ∧ (∀ p ∈ l.e, p.WF) ∧
  (valuesOf l.r).length = w ∧ (valuesOf l.g).length = w ∧ (valuesOf l.b).length = w ∧ (valuesOf l.e).length = w
/-- Bytes of the line in the file: 2, 2, the width big-endian, then the channels. -/
def Line.encode (w : Nat) (l : Line) : List Byte :=
  [2, 2, UInt8.ofNat (w / 256), UInt8.ofNat (w % 256)] ++ encodeAll l.r ++ encodeAll l.g ++ encodeAll l.b ++ encodeAll l.e
/-- Its pixels. -/
def Line.pixel (l : Line) (x : Nat) : Byte × Byte × Byte × Byte :=
  (((valuesOf l.r)[x]?).getD 0, ((valuesOf l.g)[x]?).getD 0, ((valuesOf l.b)[x]?).getD 0, ((valuesOf l.e)[x]?).getD 0)

theorem scanLine_rle (w : Nat) (hw : w < 65536) (l : Line) (hl : l.WF w) (scan tail : List Byte)
    (hs : scan.length = w * 4) :
    ∃ s, scanLine w scan (l.encode w ++ tail) = .ok (s, tail) ∧ s.length = w * 4 ∧
      ∀ x, x < w → px4 s x = l.pixel x := by
  obtain ⟨wr, wg, wb, we, lr, lg, lb, le⟩ := hl
  unfold Line.encode scanLine
  simp only [List.cons_append, List.nil_append]
  rw [ofNat_toNat _ (by omega), ofNat_toNat _ (by omega), if_pos ⟨by decide, by decide, by omega⟩]
  simp only [List.append_assoc]
  obtain ⟨s0, h0, l0, i0⟩ := chan_packets w 0 (by omega) (encodeAll l.g ++ (encodeAll l.b ++ (encodeAll l.e ++ tail)))
    l.r _ 0 scan wr hs (by omega) (Nat.lt_succ_self _)
  rw [h0, Res.ok_bind]
  simp only [List.drop_zero]
  obtain ⟨s1, h1, l1, i1⟩ := chan_packets w 1 (by omega) (encodeAll l.b ++ (encodeAll l.e ++ tail))
    l.g _ 0 s0 wg l0 (by omega) (Nat.lt_succ_self _)
  rw [h1, Res.ok_bind]
  simp only [List.drop_zero]
  obtain ⟨s2, h2, l2, i2⟩ := chan_packets w 2 (by omega) (encodeAll l.e ++ tail)
    l.b _ 0 s1 wb l1 (by omega) (Nat.lt_succ_self _)
  rw [h2, Res.ok_bind]
  simp only [List.drop_zero]
  obtain ⟨s3, h3, l3, i3⟩ := chan_packets w 3 (by omega) tail
    l.e _ 0 s2 we l2 (by omega) (Nat.lt_succ_self _)
  rw [h3]
  refine ⟨s3, by simp, l3, fun x hx => ?_⟩
  unfold px4 Line.pixel
  have m0 : (x * 4) % 4 = 0 ∧ (x * 4) / 4 = x := by omega
  have m1 : (x * 4 + 1) % 4 = 1 ∧ (x * 4 + 1) / 4 = x := by omega
  have m2 : (x * 4 + 2) % 4 = 2 ∧ (x * 4 + 2) / 4 = x := by omega
  have m3 : (x * 4 + 3) % 4 = 3 ∧ (x * 4 + 3) / 4 = x := by omega
  have e0 : s3[x * 4]? = (valuesOf l.r)[x]? := by
    rw [i3, if_neg (by omega), i2, if_neg (by omega), i1, if_neg (by omega), i0, if_pos (by omega), m0.2, Nat.sub_zero]
  have e1 : s3[x * 4 + 1]? = (valuesOf l.g)[x]? := by
    rw [i3, if_neg (by omega), i2, if_neg (by omega), i1, if_pos (by omega), m1.2, Nat.sub_zero]
  have e2 : s3[x * 4 + 2]? = (valuesOf l.b)[x]? := by
    rw [i3, if_neg (by omega), i2, if_pos (by omega), m2.2, Nat.sub_zero]
  have e3 : s3[x * 4 + 3]? = (valuesOf l.e)[x]? := by
    rw [i3, if_pos (by omega), m3.2, Nat.sub_zero]
  rw [e0, e1, e2, e3]

/-- **C24.** Any image given as scanlines whose channels are cut into run packets (1-127 equal values) and literal
packets (1-128 values) in any way is decoded to exactly its pixels, for every width below 65536 and every height,
whatever follows in the file. -/
theorem C24_roundtrip (w : Nat) (hw : w < 65536) (tail : List Byte) : ∀ (lines : List Line) (scan : List Byte),
    (∀ l ∈ lines, l.WF w) → scan.length = w * 4 →
    rows w lines.length scan ((lines.map (Line.encode w)).flatten ++ tail) =
      .ok ((lines.map fun l => (List.range w).map l.pixel).flatten)
  | [], scan, _, _ => rfl
  | l :: ls, scan, hwf, hs => by
    simp only [List.length_cons, List.map_cons, List.flatten_cons, List.append_assoc]
    unfold rows
    obtain ⟨s, h1, h2, h3⟩ := scanLine_rle w hw l (hwf l (List.mem_cons_self ..)) scan
      ((ls.map (Line.encode w)).flatten ++ tail) hs
    rw [h1, Res.ok_bind]
    simp only
    rw [pixels_ok w s h2, Res.ok_bind,
      C24_roundtrip w hw tail ls s (fun q hq => hwf q (List.mem_cons_of_mem _ hq)) h2, Res.ok_bind]
    have : (List.range w).map (px4 s) = (List.range w).map l.pixel := by
      apply List.map_congr_left
      intro x hx
      exact h3 x (List.mem_range.1 hx)
    rw [this]

/-- **C24.** Uncompressed scanlines: `4 * w` bytes whose first pixel is not the run-length marker are taken as they
are. -/
theorem C24_flat (w : Nat) (hw : 0 < w) (line tail scan : List Byte) (hl : line.length = w * 4)
    (hs : scan.length = w * 4)
    (hm : ¬ (byteAt line 0 = 2 ∧ byteAt line 1 = 2 ∧ byteAt line 2 * 256 + byteAt line 3 = w)) :
    scanLine w scan (line ++ tail) = .ok (line, tail) := by
  rcases line with _ | ⟨a, _ | ⟨b, _ | ⟨c, _ | ⟨e, rest⟩⟩⟩⟩
  · simp at hl; omega
  · simp at hl; omega
  · simp at hl; omega
  · simp at hl; omega
  rcases scan with _ | ⟨q0, _ | ⟨q1, _ | ⟨q2, _ | ⟨q3, sr⟩⟩⟩⟩
  · simp at hs; omega
  · simp at hs; omega
  · simp at hs; omega
  · simp at hs; omega
  simp only [List.length_cons] at hl hs
  unfold scanLine
  simp only [List.cons_append]
  have hm' : ¬ (a.toNat = 2 ∧ b.toNat = 2 ∧ c.toNat * 256 + e.toNat = w) := hm
  rw [if_neg hm']
  have p0 : put (q0 :: q1 :: q2 :: q3 :: sr) 0 a = .ok (a :: q1 :: q2 :: q3 :: sr) := put_ok _ _ _ (by simp)
  have p1 : put (a :: q1 :: q2 :: q3 :: sr) 1 b = .ok (a :: b :: q2 :: q3 :: sr) := put_ok _ _ _ (by simp)
  have p2 : put (a :: b :: q2 :: q3 :: sr) 2 c = .ok (a :: b :: c :: q3 :: sr) := put_ok _ _ _ (by simp)
  have p3 : put (a :: b :: c :: q3 :: sr) 3 e = .ok (a :: b :: c :: e :: sr) := put_ok _ _ _ (by simp)
  rw [p0, Res.ok_bind, p1, Res.ok_bind, p2, Res.ok_bind, p3, Res.ok_bind]
  have hrl : rest.length = (w - 1) * 4 := by omega
  by_cases h1 : 1 < w
  · rw [if_pos h1]
    rw [if_neg (by rw [List.length_append]; omega), if_neg (by simp only [List.length_cons]; omega)]
    have t1 : (rest ++ tail).take ((w - 1) * 4) = rest := by rw [← hrl, List.take_left]
    have t2 : (rest ++ tail).drop ((w - 1) * 4) = tail := by rw [← hrl, List.drop_left]
    have t3 : (a :: b :: c :: e :: sr).drop (4 + (w - 1) * 4) = [] := by
      apply List.drop_eq_nil_of_le; simp only [List.length_cons]; omega
    rw [t1, t2, t3]
    simp
  · rw [if_neg h1]
    have hw1 : w = 1 := by omega
    subst hw1
    have r0 : rest = [] := List.eq_nil_of_length_eq_zero (by omega)
    have s0 : sr = [] := List.eq_nil_of_length_eq_zero (by omega)
    subst r0; subst s0
    rfl

/-- **C24.** The shared exponent: exponent byte 0 is black; raising the exponent byte by one doubles every channel;
mantissa 128 at exponent byte 129 is exactly 1; channels are proportional to their mantissas. -/
theorem C24_rgbe_zero (r g b : Byte) : rgbe (r, g, b, 0) = (0, 0, 0) := rfl

theorem C24_rgbe_double (r g b e e' : Byte) (he : 1 ≤ e.toNat) (he' : e'.toNat = e.toNat + 1) :
    rgbe (r, g, b, e') = (2 * (rgbe (r, g, b, e)).1, 2 * (rgbe (r, g, b, e)).2.1, 2 * (rgbe (r, g, b, e)).2.2) := by
  unfold rgbe
  simp only
  rw [if_neg (by omega), if_neg (by omega), he']
  have : (2 : ℚ) ^ (((e.toNat + 1 : ℕ) : ℤ) - (128 + 8)) = 2 * 2 ^ ((e.toNat : ℤ) - (128 + 8)) := by
    rw [show (((e.toNat + 1 : ℕ) : ℤ) - (128 + 8)) = 1 + ((e.toNat : ℤ) - (128 + 8)) by push_cast; ring,
      zpow_add₀ (by norm_num : (2 : ℚ) ≠ 0), zpow_one]
  rw [this]
  refine Prod.ext ?_ (Prod.ext ?_ ?_) <;> simp only <;> ring

theorem C24_rgbe_unit : rgbe (128, 128, 128, 129) = (1, 1, 1) := by
  unfold rgbe
  have h1 : (129 : UInt8).toNat = 129 := rfl
  have h2 : (128 : UInt8).toNat = 128 := rfl
  simp only [h1, h2]
  norm_num

theorem C24_rgbe_proportional (r g b e : Byte) :
    (r.toNat : ℚ) * (rgbe (r, g, b, e)).2.1 = (g.toNat : ℚ) * (rgbe (r, g, b, e)).1 ∧
    (r.toNat : ℚ) * (rgbe (r, g, b, e)).2.2 = (b.toNat : ℚ) * (rgbe (r, g, b, e)).1 ∧
    0 ≤ (rgbe (r, g, b, e)).1 := by
  unfold rgbe
  simp only
  split
  · simp
  · refine ⟨by simp only; ring, by simp only; ring, by positivity⟩

/-! ## C74: the resolution line's orientation -/

/-- C74 in full: a bottom-to-top file ("+Y h +X w") of the same pixel data shows the rows in the opposite order of a
top-to-bottom file ("-Y h +X w"). -/
def C74_full : Prop := ∀ (maxAlloc : Nat) (tok : List Byte → Option (Int × List Byte × Int)) (dims body : List Byte)
  (i j : Image), (∀ b ∈ dims, b ≠ 10 ∧ b ≠ 13) →
  readRaw maxAlloc tok ([35, 63, 10, 10] ++ ([45, 89] ++ dims ++ [10]) ++ body) = .ok i →
  readRaw maxAlloc tok ([35, 63, 10, 10] ++ ([43, 89] ++ dims ++ [10]) ++ body) = .ok j →
  tok dims = some ((i.height : Int), [43, 88], (i.width : Int)) →
  ∀ x y, x < i.width → y < i.height → j.color x y = i.color x (i.height - 1 - y)

/-- A 1x2 image: "2 +X 1" with a white and a black pixel. -/
def demoTok : List Byte → Option (Int × List Byte × Int) := fun _ => some (2, [43, 88], 1)
def demoDims : List Byte := [32, 50, 32, 43, 88, 32, 49]
def demoBody : List Byte := [128, 128, 128, 129, 0, 0, 0, 0]

theorem demo_read (s : Byte) (hs : s = 45 ∨ s = 43) :
    readRaw 1000 demoTok ([35, 63, 10, 10] ++ ([s, 89] ++ demoDims ++ [10]) ++ demoBody) =
      .ok ⟨1, 2, [(128, 128, 128, 129), (0, 0, 0, 0)]⟩ := by
  rcases hs with rfl | rfl <;> rfl

/-- **C74 (violated).** Both orientations give the same picture. -/
theorem C74_violated : ¬ C74_full := by
  intro h
  have := h 1000 demoTok demoDims demoBody _ _ (by decide) (demo_read 45 (Or.inl rfl)) (demo_read 43 (Or.inr rfl)) rfl
    0 0 (by decide) (by decide)
  have e1 : Image.color ⟨1, 2, [(128, 128, 128, 129), (0, 0, 0, 0)]⟩ 0 0 = some (rgbe (128, 128, 128, 129)) := rfl
  have e2 : Image.color ⟨1, 2, [(128, 128, 128, 129), (0, 0, 0, 0)]⟩ 0 (2 - 1 - 0) = some (rgbe (0, 0, 0, 0)) := rfl
  rw [show Image.height ⟨1, 2, [(128, 128, 128, 129), (0, 0, 0, 0)]⟩ = 2 from rfl, e1, e2, C24_rgbe_unit, C24_rgbe_zero] at this
  simp at this

/-- **C74 (partial).** The top-to-bottom, left-to-right form is honoured: with "-Y h +X w" the first scanline of the
file is row 0 and its first pixel is column 0. -/
theorem C74_standard_partial (w : Nat) (hw : w < 65536) (tail : List Byte) (lines : List Line) (scan : List Byte)
    (hwf : ∀ l ∈ lines, l.WF w) (hs : scan.length = w * 4) (y x : Nat) (hy : y < lines.length) (hx : x < w) :
    ∃ px, rows w lines.length scan ((lines.map (Line.encode w)).flatten ++ tail) = .ok px ∧
      px[y * w + x]? = some ((lines[y]).pixel x) := by
  refine ⟨_, C24_roundtrip w hw tail lines scan hwf hs, ?_⟩
  clear hwf hs scan
  induction lines generalizing y with
  | nil => simp at hy
  | cons l ls ih =>
    simp only [List.map_cons, List.flatten_cons]
    cases y with
    | zero =>
      rw [List.getElem?_append_left (by simp; omega)]
      simp [hx]
    | succ y =>
      rw [List.getElem?_append_right (by simp only [List.length_map, List.length_range, Nat.succ_mul]; omega)]
      simp only [List.length_map, List.length_range, List.getElem_cons_succ]
      have e : (y + 1) * w + x - w = y * w + x := by rw [Nat.succ_mul]; omega
      rw [e]
      exact ih y (by simpa using hy)

/-- The bound on the number of header lines in the model is never reached. -/
theorem readLineFrom_len : ∀ (d acc : List Byte), (readLineFrom acc d).2.length ≤ d.length ∧
    ((readLineFrom acc d).1 ≠ none → d ≠ [] → (readLineFrom acc d).2.length < d.length)
  | [], acc => by unfold readLineFrom; simp
  | c :: t, acc => by
    obtain ⟨ih, _⟩ := readLineFrom_len t (acc ++ [c])
    unfold readLineFrom
    split
    · simp
    split
    · split
      · simp; omega
      · simp
    · simp only [List.length_cons]; exact ⟨by omega, fun _ _ => by omega⟩

theorem C23_header_fuel (d : List Byte) : ∀ (n : Nat), d.length < n → skipHeader n d = skipHeader (d.length + 1) d := by
  obtain ⟨m, hm⟩ : ∃ m, d.length ≤ m := ⟨_, Nat.le_refl _⟩
  induction m generalizing d with
  | zero =>
    intro n hn
    have : d = [] := List.eq_nil_of_length_eq_zero (by omega)
    subst this
    cases n with
    | zero => simp at hn
    | succ n => rfl
  | succ m ih =>
    intro n hn
    cases n with
    | zero => omega
    | succ n =>
      unfold skipHeader
      cases hr : readLine d with
      | mk o d' =>
        cases o with
        | none => rfl
        | some l =>
          simp only
          split
          · rfl
          · rename_i hl
            cases d with
            | nil => simp [readLine, readLineFrom] at hr
            | cons c t =>
              have := (readLineFrom_len (c :: t) []).2
              unfold readLine at hr
              rw [hr] at this
              have hlt := this (by simp) (by simp)
              simp only at hlt
              simp only [List.length_cons] at hlt hm hn
              rw [ih d' (by omega) n (by omega), ih d' (by omega) (c :: t).length (by simp only [List.length_cons]; omega)]

/-- Non-vacuity: a well-formed one-line image of width 3 mixing runs and literals. -/
example : Line.WF 3 ⟨[.run 3 7], [.lit [1, 2, 3]], [.run 2 0, .lit [9]], [.lit [128], .run 2 129]⟩ := by
  simp [Line.WF, Packet.WF, valuesOf, Packet.values]

end Huira.ImageIO.Hdr
