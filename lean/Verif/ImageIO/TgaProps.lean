import Verif.ImageIO.Tga
/-! # TGA properties C22, C73 -/
set_option linter.unusedSimpArgs false
namespace Huira.ImageIO.Tga

/-- C22 in full. -/
def C22_full : Prop := ∀ (maxAlloc : Nat) (d : List Byte), readRaw maxAlloc d ≠ .ub

/-- An 18-byte header: image type, width, height, depth (no ID, no colour map, bottom origin). -/
def header (ty w h depth : Byte) : List Byte := [0, 0, ty, 0, 0, 0, 0, 0, 0, 0, 0, 0, w, 0, h, 0, depth, 0]

/-- **C22 (violated).** A valid one-pixel 16-bit true-colour file: the third byte of a two-byte pixel is read. -/
theorem C22_violated : ¬ C22_full := by
  intro h
  exact h 1000 (header 2 1 1 16 ++ [0x11, 0x22]) (by decide)

/-- **C22 (violated).** A one-pixel RLE file whose raw packet announces two pixels: three bytes are written past
the decoded pixel buffer, with bytes chosen by the file. -/
theorem C22_rle_overflow : readRaw 1000 (header 10 1 1 24 ++ [1, 1, 2, 3, 4, 5, 6]) = .ub := by
  have : indices 1000 (parseHdr (header 10 1 1 24 ++ [1, 1, 2, 3, 4, 5, 6])) [1, 1, 2, 3, 4, 5, 6] = .ub := by
    unfold indices rleDecode; decide
  unfold readRaw
  rw [if_neg (by decide)]
  simp only
  rw [if_neg (by decide), if_neg (by decide), if_neg (by decide)]
  show (indices 1000 (parseHdr (header 10 1 1 24 ++ [1, 1, 2, 3, 4, 5, 6])) [1, 1, 2, 3, 4, 5, 6] >>= _) = _
  rw [this]; rfl

/-- **C22 (violated).** A palette of one entry and a pixel with index 5: read outside the palette. -/
theorem C22_palette_index : readRaw 1000
    ([0, 1, 1, 0, 0, 1, 0, 24, 0, 0, 0, 0, 1, 0, 1, 0, 8, 0] ++ [10, 20, 30] ++ [5]) = .ub := by decide

/-- **C22 (violated).** No palette at all in a colour-mapped file. -/
theorem C22_no_palette : readRaw 1000 (header 1 1 1 8 ++ [0]) = .ub := by decide

/-! ## The conversion loop -/

theorem writeLoop_spec : ∀ (ws : List (Nat × Byte)) (v : List Byte), (∀ w ∈ ws, w.1 < v.length) →
    (∀ w ∈ ws, ∀ w' ∈ ws, w.1 = w'.1 → w.2 = w'.2) →
    ∃ r, writeLoop ws v = .ok r ∧ r.length = v.length ∧ (∀ w ∈ ws, r[w.1]? = some w.2) ∧
      (∀ i, (∀ w ∈ ws, w.1 ≠ i) → r[i]? = v[i]?)
  | [], v, _, _ => ⟨v, rfl, rfl, by simp, fun _ _ => rfl⟩
  | (i, b) :: ws, v, h1, h2 => by
    have hi : i < v.length := h1 (i, b) (List.mem_cons_self ..)
    unfold writeLoop
    rw [if_pos hi]
    obtain ⟨r, hr, hl, hm, ho⟩ := writeLoop_spec ws (v.set i b)
      (fun w hw => by rw [List.length_set]; exact h1 w (List.mem_cons_of_mem _ hw))
      (fun w hw w' hw' => h2 w (List.mem_cons_of_mem _ hw) w' (List.mem_cons_of_mem _ hw'))
    refine ⟨r, hr, by rw [hl, List.length_set], ?_, ?_⟩
    · intro w hmem
      by_cases hin : ∃ w' ∈ ws, w'.1 = w.1
      · obtain ⟨w', hw', he⟩ := hin
        rw [← he, hm w' hw', h2 w hmem w' (List.mem_cons_of_mem _ hw') he.symm]
      · rcases List.mem_cons.1 hmem with rfl | hws
        · simp only
          rw [ho i (fun w hw he => hin ⟨w, hw, he⟩), List.getElem?_set_self hi]
        · exact absurd ⟨w, hws, rfl⟩ hin
    · intro j hj
      rw [ho j (fun w hw => hj w (List.mem_cons_of_mem _ hw)), List.getElem?_set_ne]
      exact hj (i, b) (List.mem_cons_self ..)

/-- Row of the stored image that row `y` of the result shows. -/
def srcRow (h : Hdr) (y : Nat) : Nat := if h.topOrigin then y else h.height - 1 - y

theorem srcRow_lt (h : Hdr) (y : Nat) (hy : y < h.height) : srcRow h y < h.height := by
  unfold srcRow; split <;> omega

theorem srcPixel_lt (h : Hdr) (x y : Nat) (hx : x < h.width) (hy : y < h.height) :
    srcRow h y * h.width + x < h.width * h.height := by
  have := pixel_index_lt h.width h.height 1 x (srcRow h y) 0 hx (srcRow_lt h y hy) (by omega)
  omega

theorem convert_ok (maxAlloc : Nat) (h : Hdr) (cmap idx : List Byte) (f : Nat → List Byte)
    (hres : ∀ i, i < h.width * h.height → resolve h cmap idx i = .ok (f i))
    (halloc : h.width * h.height * h.outChannels ≤ maxAlloc) :
    ∃ data, convert maxAlloc h cmap idx = .ok ⟨h.width, h.height, h.outChannels, h.alpha, data⟩ ∧
      ∀ x y c, x < h.width → y < h.height → c < h.outChannels →
        data[(y * h.width + x) * h.outChannels + c]? = some (((f (srcRow h y * h.width + x))[c]?).getD 0) := by
  let g : Nat × Nat → List (Nat × Byte) := fun p =>
    (List.range h.outChannels).map fun c =>
      ((p.2 * h.width + p.1) * h.outChannels + c, ((f (srcRow h p.2 * h.width + p.1))[c]?).getD 0)
  have hm : mapRes (pixelWrites h cmap idx) (grid h.width h.height) = .ok ((grid h.width h.height).map g) := by
    apply mapRes_ok
    intro p hp
    obtain ⟨hx, hy⟩ := (mem_grid _ _ p).1 hp
    unfold pixelWrites
    have e := hres _ (srcPixel_lt h p.1 p.2 hx hy)
    unfold srcRow at e
    simp only [e, Res.ok_bind]
    simp only [g, Hdr.outChannels, srcRow]
    cases h.alpha <;> rfl
  have hmem : ∀ w, w ∈ ((grid h.width h.height).map g).flatten ↔ ∃ x y c, x < h.width ∧ y < h.height ∧
      c < h.outChannels ∧ w = ((y * h.width + x) * h.outChannels + c,
        ((f (srcRow h y * h.width + x))[c]?).getD 0) := by
    intro w
    simp only [List.mem_flatten, List.mem_map]
    constructor
    · rintro ⟨l, ⟨p, hp, rfl⟩, hw⟩
      obtain ⟨hx, hy⟩ := (mem_grid _ _ p).1 hp
      simp only [g, List.mem_map, List.mem_range] at hw
      obtain ⟨c, hc, rfl⟩ := hw
      exact ⟨p.1, p.2, c, hx, hy, hc, rfl⟩
    · rintro ⟨x, y, c, hx, hy, hc, rfl⟩
      refine ⟨_, ⟨(x, y), (mem_grid _ _ _).2 ⟨hx, hy⟩, rfl⟩, ?_⟩
      simp only [g, List.mem_map, List.mem_range]
      exact ⟨c, hc, rfl⟩
  obtain ⟨r, hr, _, hv, _⟩ := writeLoop_spec _ (List.replicate (h.width * h.height * h.outChannels) 0)
    (fun w hw => by
      obtain ⟨x, y, c, hx, hy, hc, rfl⟩ := (hmem w).1 hw
      simp only [List.length_replicate]
      exact pixel_index_lt _ _ _ x y c hx hy hc)
    (fun w hw w' hw' he => by
      obtain ⟨x, y, c, hx, hy, hc, rfl⟩ := (hmem w).1 hw
      obtain ⟨x', y', c', hx', hy', hc', rfl⟩ := (hmem w').1 hw'
      obtain ⟨rfl, rfl, rfl⟩ := pixel_index_inj _ _ x y c x' y' c' hx hx' hc hc' he
      rfl)
  refine ⟨r, ?_, ?_⟩
  · unfold convert
    rw [if_neg (by omega), hm, Res.ok_bind, hr, Res.ok_bind]
  · intro x y c hx hy hc
    exact hv _ ((hmem _).2 ⟨x, y, c, hx, hy, hc, rfl⟩)

theorem at!_ok (v : List Byte) (i : Nat) (hi : i < v.length) : at! v i = .ok ((v[i]?).getD 0) := by
  unfold at!
  rw [List.getElem?_eq_getElem hi]; rfl

/-- What `bgra` yields in range. -/
def bgraVal (v : List Byte) (base ch : Nat) : List Byte :=
  [(v[base + 2]?).getD 0, (v[base + 1]?).getD 0, (v[base]?).getD 0, if 4 ≤ ch then (v[base + 3]?).getD 0 else 255]

theorem bgra_ok (v : List Byte) (base ch : Nat) (h3 : 3 ≤ ch) (h : base + ch ≤ v.length) :
    bgra v base ch = .ok (bgraVal v base ch) := by
  unfold bgra bgraVal
  rw [at!_ok v _ (by omega), Res.ok_bind, at!_ok v _ (by omega), Res.ok_bind, at!_ok v _ (by omega), Res.ok_bind]
  split
  · rw [at!_ok v _ (by omega), Res.ok_bind]
  · rfl

/-- Resolved true-colour and grey pixels. -/
def directVal (h : Hdr) (idx : List Byte) (i : Nat) : List Byte :=
  if h.gray then [(idx[i]?).getD 0, (idx[i]?).getD 0, (idx[i]?).getD 0, 255]
  else bgraVal idx (i * (h.depth / 8)) (h.depth / 8)

theorem resolve_direct (h : Hdr) (cmap idx : List Byte) (hmap : h.mapped = false)
    (hd : h.gray = true ∨ 24 ≤ h.depth) (n i : Nat) (hlen : idx.length = n * h.indexBytes) (hi : i < n) :
    resolve h cmap idx i = .ok (directVal h idx i) := by
  unfold resolve directVal
  simp only [hmap, Bool.false_eq_true, if_false]
  by_cases hg : h.gray = true
  · rw [if_pos hg, if_pos hg]
    have : h.indexBytes = 1 := by simp [Hdr.indexBytes, Hdr.fileChannels, hmap, hg]
    rw [this] at hlen
    rw [at!_ok _ _ (by omega), Res.ok_bind]
  · rw [if_neg hg, if_neg hg]
    have e1 : h.indexBytes = h.depth / 8 := by simp [Hdr.indexBytes, Hdr.fileChannels, hmap, hg]
    have e2 : h.fileChannels = h.depth / 8 := by simp [Hdr.fileChannels, hmap, hg]
    have hd' : 24 ≤ h.depth := by simpa [hg] using hd
    rw [e1] at hlen
    rw [e1, e2]
    apply bgra_ok
    · omega
    · have := Nat.mul_le_mul_right (h.depth / 8) hi
      rw [Nat.succ_mul] at this
      omega

/-! ## The RLE loop -/

/-- A packet of the format: `run n px` repeats one pixel, `raw pxs` lists pixels. -/
inductive Packet where
  | run (n : Nat) (px : List Byte)
  | raw (pxs : List (List Byte))

/-- Well-formed for `ib`-byte pixels: 1 to 128 pixels of `ib` bytes. -/
def Packet.WF (ib : Nat) : Packet → Prop
  | .run n px => 1 ≤ n ∧ n ≤ 128 ∧ px.length = ib
  | .raw pxs => 1 ≤ pxs.length ∧ pxs.length ≤ 128 ∧ ∀ px ∈ pxs, px.length = ib
/-- The pixels a packet stands for. -/
def Packet.pixels : Packet → List (List Byte)
  | .run n px => List.replicate n px
  | .raw pxs => pxs
/-- Its bytes in the file: the count minus one, with the top bit set for runs, then pixel data. -/
def Packet.encode : Packet → List Byte
  | .run n px => UInt8.ofNat (128 + (n - 1)) :: px
  | .raw pxs => UInt8.ofNat (pxs.length - 1) :: pxs.flatten
def pixelsOf (ps : List Packet) : List (List Byte) := (ps.map Packet.pixels).flatten
def encodeAll (ps : List Packet) : List Byte := (ps.map Packet.encode).flatten

theorem flatten_len (ib : Nat) : ∀ (l : List (List Byte)), (∀ p ∈ l, p.length = ib) → l.flatten.length = l.length * ib
  | [], _ => by simp
  | p :: l, h => by
    rw [List.flatten_cons, List.length_append, h p (List.mem_cons_self ..),
      flatten_len ib l (fun q hq => h q (List.mem_cons_of_mem _ hq)), List.length_cons, Nat.succ_mul]
    omega

theorem ofNat_toNat (n : Nat) (h : n < 256) : (UInt8.ofNat n).toNat = n := by
  rw [UInt8.toNat_ofNat']; exact Nat.mod_eq_of_lt h

/-- Decoding any packet list with exactly the pixels still missing yields them, ignoring what follows. -/
theorem rle_packets (ib n : Nat) (hib : 0 < ib) (tail : List Byte) : ∀ (ps : List Packet) (out : List Byte) (dec : Nat),
    (∀ p ∈ ps, p.WF ib) → dec + (pixelsOf ps).length = n →
    rleDecode ib n (encodeAll ps ++ tail) out dec = .ok (out ++ (pixelsOf ps).flatten)
  | [], out, dec, _, hn => by
    simp [pixelsOf] at hn
    unfold rleDecode
    rw [if_pos (by omega)]
    simp [pixelsOf]
  | p :: ps, out, dec, hwf, hn => by
    have hp := hwf p (List.mem_cons_self ..)
    have hps : ∀ q ∈ ps, q.WF ib := fun q hq => hwf q (List.mem_cons_of_mem _ hq)
    have hpix : pixelsOf (p :: ps) = p.pixels ++ pixelsOf ps := by simp [pixelsOf]
    have henc : encodeAll (p :: ps) = p.encode ++ encodeAll ps := by simp [encodeAll]
    rw [hpix, List.length_append] at hn
    rw [hpix, henc]
    cases p with
    | run k px =>
      obtain ⟨h1, h2, h3⟩ := hp
      simp only [Packet.pixels, Packet.encode, List.length_replicate] at hn ⊢
      unfold rleDecode
      rw [if_neg (by omega)]
      simp only [List.cons_append]
      rw [ofNat_toNat _ (by omega), if_pos (by omega), if_neg (by simp [h3]), if_neg (by omega)]
      have e1 : (128 + (k - 1)) % 128 + 1 = k := by omega
      rw [e1, Nat.min_eq_left (by omega)]
      have e2 : ((px ++ encodeAll ps) ++ tail).drop ib = encodeAll ps ++ tail := by
        rw [List.append_assoc, ← h3, List.drop_left]
      have e3 : ((px ++ encodeAll ps) ++ tail).take ib = px := by
        rw [List.append_assoc, ← h3, List.take_left]
      rw [e2, e3, rle_packets ib n hib tail ps _ _ hps (by omega)]
      simp
    | raw pxs =>
      obtain ⟨h1, h2, h3⟩ := hp
      simp only [Packet.pixels, Packet.encode] at hn ⊢
      have hfl := flatten_len ib pxs h3
      unfold rleDecode
      rw [if_neg (by omega)]
      simp only [List.cons_append]
      rw [ofNat_toNat _ (by omega), if_neg (by omega)]
      have e1 : (pxs.length - 1) % 128 + 1 = pxs.length := by omega
      have hle : dec * ib + pxs.length * ib ≤ n * ib := by
        rw [← Nat.add_mul]; exact Nat.mul_le_mul_right _ (by omega)
      rw [e1, if_neg (by simp [hfl]), if_neg (by omega)]
      have e2 : ((pxs.flatten ++ encodeAll ps) ++ tail).drop (pxs.length * ib) = encodeAll ps ++ tail := by
        rw [List.append_assoc, ← hfl, List.drop_left]
      have e3 : ((pxs.flatten ++ encodeAll ps) ++ tail).take (pxs.length * ib) = pxs.flatten := by
        rw [List.append_assoc, ← hfl, List.take_left]
      rw [e2, e3, rle_packets ib n hib tail ps _ _ hps (by omega)]
      simp

/-- The defect of the format reader: after packets for fewer than `n` pixels comes a raw packet, complete in the
file, for more pixels than are still missing. -/
def Overrun (ib n : Nat) (rest : List Byte) : Prop :=
  ∃ ps pxs tail, (∀ p ∈ ps, Packet.WF ib p) ∧ Packet.WF ib (.raw pxs) ∧
    rest = encodeAll ps ++ (Packet.raw pxs).encode ++ tail ∧
    (pixelsOf ps).length < n ∧ n < (pixelsOf ps).length + pxs.length

theorem Overrun.cons {ib n dec : Nat} {rest : List Byte} (p : Packet) (hp : p.WF ib)
    (h : Overrun ib (n - dec - p.pixels.length) rest) (hlt : dec + p.pixels.length < n) :
    Overrun ib (n - dec) (p.encode ++ rest) := by
  obtain ⟨ps, pxs, tail, h1, h2, h3, h4, h5⟩ := h
  refine ⟨p :: ps, pxs, tail, ?_, h2, ?_, ?_, ?_⟩
  · intro q hq
    rcases List.mem_cons.1 hq with rfl | hq
    · exact hp
    · exact h1 q hq
  · rw [h3]; simp [encodeAll]
  · have : pixelsOf (p :: ps) = p.pixels ++ pixelsOf ps := by simp [pixelsOf]
    rw [this, List.length_append]; omega
  · have : pixelsOf (p :: ps) = p.pixels ++ pixelsOf ps := by simp [pixelsOf]
    rw [this, List.length_append]; omega

/-- Cut a list into `k` pixels of `ib` bytes. -/
def chunks (ib : Nat) : Nat → List Byte → List (List Byte)
  | 0, _ => []
  | k + 1, l => l.take ib :: chunks ib k (l.drop ib)

theorem chunks_spec (ib : Nat) : ∀ (k : Nat) (l : List Byte), l.length = k * ib →
    (chunks ib k l).length = k ∧ (∀ p ∈ chunks ib k l, p.length = ib) ∧ (chunks ib k l).flatten = l
  | 0, l, h => by
    have : l = [] := List.eq_nil_of_length_eq_zero (by omega)
    subst this
    exact ⟨rfl, by simp [chunks], rfl⟩
  | k + 1, l, h => by
    rw [Nat.succ_mul] at h
    obtain ⟨h1, h2, h3⟩ := chunks_spec ib k (l.drop ib) (by rw [List.length_drop]; omega)
    refine ⟨by simp [chunks, h1], ?_, ?_⟩
    · intro p hp
      rcases List.mem_cons.1 hp with rfl | hp
      · rw [List.length_take]; omega
      · exact h2 p hp
    · simp [chunks, h3]

theorem byte_run (p : Byte) (h : 128 ≤ p.toNat) : UInt8.ofNat (128 + (p.toNat % 128 + 1 - 1)) = p := by
  apply UInt8.toNat_inj.1
  have := UInt8.toNat_lt p
  rw [ofNat_toNat _ (by omega)]
  omega

theorem byte_raw (p : Byte) (h : ¬ 128 ≤ p.toNat) : UInt8.ofNat (p.toNat % 128 + 1 - 1) = p := by
  apply UInt8.toNat_inj.1
  have := UInt8.toNat_lt p
  rw [ofNat_toNat _ (by omega)]
  omega

/-- For every byte string: the loop is undefined exactly on an overrunning raw packet, and a successful run fills
the buffer exactly. -/
theorem rle_total (ib n : Nat) (hib : 0 < ib) : ∀ (m : Nat) (rest out : List Byte) (dec : Nat), rest.length ≤ m →
    out.length = dec * ib → dec ≤ n →
    (∀ r, rleDecode ib n rest out dec = .ok r → r.length = n * ib) ∧
    (rleDecode ib n rest out dec = .ub → Overrun ib (n - dec) rest) := by
  intro m
  induction m with
  | zero =>
    intro rest out dec hm hout hdec
    have : rest = [] := List.eq_nil_of_length_eq_zero (by omega)
    subst this
    unfold rleDecode
    by_cases h : n ≤ dec
    · rw [if_pos h]
      refine ⟨fun r hr => ?_, fun hr => by simp at hr⟩
      injection hr with hr
      subst hr
      have : dec = n := by omega
      subst this; exact hout
    · rw [if_neg h]
      exact ⟨fun r hr => by simp at hr, fun hr => by simp at hr⟩
  | succ m ih =>
    intro rest out dec hm hout hdec
    unfold rleDecode
    by_cases h : n ≤ dec
    · rw [if_pos h]
      refine ⟨fun r hr => ?_, fun hr => by simp at hr⟩
      injection hr with hr
      subst hr
      have : dec = n := by omega
      subst this; exact hout
    rw [if_neg h]
    cases rest with
    | nil => exact ⟨fun r hr => by simp at hr, fun hr => by simp at hr⟩
    | cons p t =>
      simp only
      simp only [List.length_cons] at hm
      by_cases hp : 128 ≤ p.toNat
      · rw [if_pos hp]
        by_cases ht : t.length < ib
        · rw [if_pos ht]; exact ⟨fun r hr => by simp at hr, fun hr => by simp at hr⟩
        rw [if_neg ht, if_neg (by omega)]
        have htk : (t.take ib).length = ib := by rw [List.length_take]; omega
        obtain ⟨k, hk⟩ : ∃ k, k = min (p.toNat % 128 + 1) (n - dec) := ⟨_, rfl⟩
        rw [← hk]
        obtain ⟨i1, i2⟩ := ih (t.drop ib) (out ++ (List.replicate k (t.take ib)).flatten) (dec + k)
          (by rw [List.length_drop]; omega)
          (by
            rw [List.length_append, flatten_len ib _ (fun q hq => by
              rw [List.eq_of_mem_replicate hq]; exact htk), List.length_replicate, hout, Nat.add_mul])
          (by omega)
        refine ⟨i1, fun hu => ?_⟩
        have ho := i2 hu
        have hfull : k = p.toNat % 128 + 1 ∧ dec + k < n := by
          obtain ⟨ps, pxs, tail, _, _, _, h4, h5⟩ := ho
          omega
        have hb := UInt8.toNat_lt p
        have := Overrun.cons (ib := ib) (n := n) (dec := dec) (rest := t.drop ib)
          (.run (p.toNat % 128 + 1) (t.take ib)) ⟨by omega, by omega, htk⟩
          (by
            simp only [Packet.pixels, List.length_replicate]
            rw [← hfull.1]
            have e : n - dec - k = n - (dec + k) := by omega
            rw [e]; exact ho)
          (by simp only [Packet.pixels, List.length_replicate]; omega)
        simp only [Packet.encode, byte_run p hp, List.cons_append, List.take_append_drop] at this
        exact this
      · rw [if_neg hp]
        obtain ⟨c, hc⟩ : ∃ c, c = p.toNat % 128 + 1 := ⟨_, rfl⟩
        rw [← hc]
        by_cases ht : t.length < c * ib
        · rw [if_pos ht]; exact ⟨fun r hr => by simp at hr, fun hr => by simp at hr⟩
        rw [if_neg ht]
        have htk : (t.take (c * ib)).length = c * ib := by rw [List.length_take]; omega
        obtain ⟨c1, c2, c3⟩ := chunks_spec ib c (t.take (c * ib)) htk
        have hwf : Packet.WF ib (.raw (chunks ib c (t.take (c * ib)))) := ⟨by omega, by omega, c2⟩
        have henc : (Packet.raw (chunks ib c (t.take (c * ib)))).encode ++ t.drop (c * ib) = p :: t := by
          have e : UInt8.ofNat (c - 1) = p := by rw [hc]; exact byte_raw p hp
          simp only [Packet.encode]
          rw [c1, c3, e, List.cons_append, List.take_append_drop]
        by_cases ho : ib = 0 ∨ n * ib < dec * ib + c * ib
        · rw [if_pos ho]
          refine ⟨fun r hr => by simp at hr, fun _ => ?_⟩
          have hlt : n < dec + c := by
            rcases ho with ho | ho
            · omega
            · rw [← Nat.add_mul] at ho
              exact Nat.lt_of_mul_lt_mul_right ho
          refine ⟨[], chunks ib c (t.take (c * ib)), t.drop (c * ib), by simp, hwf, ?_, ?_, ?_⟩
          · rw [← henc]; simp [encodeAll]
          · simp [pixelsOf]; omega
          · simp [pixelsOf, c1]; omega
        · rw [if_neg ho]
          have hle : dec + c ≤ n := by
            apply Nat.le_of_not_lt
            intro hlt
            apply ho
            right
            rw [← Nat.add_mul]
            exact (Nat.mul_lt_mul_right hib).2 hlt
          obtain ⟨i1, i2⟩ := ih (t.drop (c * ib)) (out ++ t.take (c * ib)) (dec + c)
            (by rw [List.length_drop]; omega)
            (by rw [List.length_append, htk, hout, Nat.add_mul]) hle
          refine ⟨i1, fun hu => ?_⟩
          have ho' := i2 hu
          have hlt : dec + c < n := by
            obtain ⟨_, _, _, _, _, _, h4, _⟩ := ho'
            omega
          have := Overrun.cons (ib := ib) (n := n) (dec := dec) (rest := t.drop (c * ib))
            (.raw (chunks ib c (t.take (c * ib)))) hwf
            (by
              simp only [Packet.pixels, c1]
              have e : n - dec - c = n - (dec + c) := by omega
              rw [e]; exact ho')
            (by simp only [Packet.pixels, c1]; omega)
          rw [henc] at this
          exact this

/-! ## The reader -/

/-- Where the pixel data starts. -/
def dataStart (h : Hdr) : Nat := 18 + h.idLength + h.cmSize

theorem readRaw_cases (maxAlloc : Nat) (d : List Byte) :
    readRaw maxAlloc d = .throw ∨
    (18 ≤ d.length ∧ dataStart (parseHdr d) ≤ d.length ∧
      ((parseHdr d).truecolor || (parseHdr d).gray || (parseHdr d).mapped) = true ∧
      readRaw maxAlloc d = (indices maxAlloc (parseHdr d) (d.drop (dataStart (parseHdr d))) >>= fun idx =>
        convert maxAlloc (parseHdr d) ((d.drop (18 + (parseHdr d).idLength)).take (parseHdr d).cmSize) idx)) := by
  unfold readRaw dataStart
  by_cases h1 : d.length < 18
  · left; rw [if_pos h1]
  rw [if_neg h1]
  simp only
  split
  · left; rfl
  rename_i h2
  split
  · left; rfl
  split
  · left; rfl
  right
  refine ⟨by omega, by omega, ?_, rfl⟩
  cases h3 : (parseHdr d).truecolor <;> cases h4 : (parseHdr d).gray <;> cases h5 : (parseHdr d).mapped <;>
    simp_all

theorem convert_safe (maxAlloc : Nat) (h : Hdr) (cmap idx : List Byte) (f : Nat → List Byte)
    (hres : ∀ i, i < h.width * h.height → resolve h cmap idx i = .ok (f i)) :
    convert maxAlloc h cmap idx ≠ .ub := by
  by_cases ha : maxAlloc < h.width * h.height * h.outChannels
  · unfold convert; rw [if_pos ha]; simp
  · obtain ⟨data, hd, _⟩ := convert_ok maxAlloc h cmap idx f hres (by omega)
    rw [hd]; simp

/-- **C22 (partial).** Every byte string whose header announces an uncompressed grey image, or an uncompressed
true-colour image of at least 24 bits, is read safely (or refused). -/
theorem C22_uncompressed_partial (maxAlloc : Nat) (d : List Byte)
    (hty : byteAt d 2 = 3 ∨ (byteAt d 2 = 2 ∧ 24 ≤ byteAt d 16)) : readRaw maxAlloc d ≠ .ub := by
  rcases readRaw_cases maxAlloc d with h | ⟨_, _, _, h⟩
  · rw [h]; simp
  rw [h]
  have htype : (parseHdr d).imageType = byteAt d 2 := rfl
  have hdep : (parseHdr d).depth = byteAt d 16 := rfl
  have hmap : (parseHdr d).mapped = false := by
    unfold Hdr.mapped; rw [htype]; rcases hty with e | e <;> simp [e]
  have hrle : (parseHdr d).rle = false := by
    unfold Hdr.rle; rw [htype]; rcases hty with e | e <;> simp [e]
  have hg : (parseHdr d).gray = true ∨ 24 ≤ (parseHdr d).depth := by
    unfold Hdr.gray; rw [htype, hdep]
    rcases hty with e | e
    · left; simp [e]
    · right; exact e.2
  unfold indices
  rw [hrle]
  simp only [Bool.false_eq_true, if_false]
  split
  · simp
  rename_i hlen
  rw [Res.ok_bind]
  apply convert_safe (f := directVal (parseHdr d) _)
  intro i hi
  exact resolve_direct _ _ _ hmap hg _ i (by rw [List.length_take]; omega) hi

/-- **C22 (partial).** Every byte string whose header announces a run-length coded grey image, or true-colour image
of at least 24 bits, is read safely unless a raw packet announces more pixels than the image still lacks. -/
theorem C22_rle_partial (maxAlloc : Nat) (d : List Byte)
    (hty : byteAt d 2 = 11 ∨ (byteAt d 2 = 10 ∧ 24 ≤ byteAt d 16))
    (hno : ¬ Overrun (parseHdr d).indexBytes (le16 d 12 * le16 d 14) (d.drop (dataStart (parseHdr d)))) :
    readRaw maxAlloc d ≠ .ub := by
  rcases readRaw_cases maxAlloc d with h | ⟨_, _, _, h⟩
  · rw [h]; simp
  rw [h]
  have htype : (parseHdr d).imageType = byteAt d 2 := rfl
  have hdep : (parseHdr d).depth = byteAt d 16 := rfl
  have hmap : (parseHdr d).mapped = false := by
    unfold Hdr.mapped; rw [htype]; rcases hty with e | e <;> simp [e]
  have hrle : (parseHdr d).rle = true := by
    unfold Hdr.rle; rw [htype]; rcases hty with e | e <;> simp [e]
  have hg : (parseHdr d).gray = true ∨ 24 ≤ (parseHdr d).depth := by
    unfold Hdr.gray; rw [htype, hdep]
    rcases hty with e | e
    · left; simp [e]
    · right; exact e.2
  have hib : 0 < (parseHdr d).indexBytes := by
    unfold Hdr.indexBytes Hdr.fileChannels
    rw [hmap]
    simp only [Bool.false_eq_true, if_false]
    split
    · omega
    · rename_i hng
      have : 24 ≤ (parseHdr d).depth := by simpa [hng] using hg
      omega
  unfold indices
  rw [if_pos hrle]
  split
  · simp
  obtain ⟨t1, t2⟩ := rle_total (parseHdr d).indexBytes ((parseHdr d).width * (parseHdr d).height) hib
    (d.drop (dataStart (parseHdr d))).length (d.drop (dataStart (parseHdr d))) [] 0 (Nat.le_refl _)
    (by simp) (Nat.zero_le _)
  cases hr : rleDecode (parseHdr d).indexBytes ((parseHdr d).width * (parseHdr d).height)
      (d.drop (dataStart (parseHdr d))) [] 0 with
  | throw => simp
  | ub => exact absurd (t2 hr) hno
  | ok idx =>
    rw [Res.ok_bind]
    apply convert_safe (f := directVal (parseHdr d) _)
    intro i hi
    exact resolve_direct _ _ _ hmap hg _ i (t1 idx hr) hi

/-- **C22 (partial).** Colour-mapped, uncompressed, 8-bit indices: safe if the palette is present with entries of
at least three bytes and every index byte of the picture lies in the palette. -/
theorem C22_mapped_partial (maxAlloc : Nat) (d : List Byte) (hty : byteAt d 2 = 1) (hdep : byteAt d 16 = 8)
    (hcm : byteAt d 1 = 1) (hent : 17 ≤ byteAt d 7)
    (hin : ∀ b ∈ (d.drop (dataStart (parseHdr d))).take (le16 d 12 * le16 d 14),
      le16 d 3 ≤ b.toNat ∧ b.toNat < le16 d 3 + le16 d 5) :
    readRaw maxAlloc d ≠ .ub := by
  rcases readRaw_cases maxAlloc d with h | ⟨_, hds, _, h⟩
  · rw [h]; simp
  rw [h]
  have htype : (parseHdr d).imageType = 1 := hty
  have hdep' : (parseHdr d).depth = 8 := hdep
  have hmap : (parseHdr d).mapped = true := by unfold Hdr.mapped; rw [htype]; rfl
  have hrle : (parseHdr d).rle = false := by unfold Hdr.rle; rw [htype]; rfl
  have hib : (parseHdr d).indexBytes = 1 := by unfold Hdr.indexBytes; rw [hmap, hdep']; rfl
  unfold indices
  rw [hrle]
  simp only [Bool.false_eq_true, if_false]
  split
  · simp
  rename_i hlen
  rw [hib, Nat.mul_one] at hlen
  rw [hib, Nat.mul_one, Res.ok_bind]
  obtain ⟨idx, hidx⟩ : ∃ idx, idx = (d.drop (dataStart (parseHdr d))).take
    ((parseHdr d).width * (parseHdr d).height) := ⟨_, rfl⟩
  rw [← hidx]
  have hil : idx.length = (parseHdr d).width * (parseHdr d).height := by
    rw [hidx, List.length_take]; omega
  have hin' : ∀ b ∈ idx, le16 d 3 ≤ b.toNat ∧ b.toNat < le16 d 3 + le16 d 5 := by
    intro b hb
    rw [hidx] at hb
    exact hin b hb
  apply convert_safe (f := fun i => bgraVal ((d.drop (18 + (parseHdr d).idLength)).take (parseHdr d).cmSize)
    ((((idx[i]?).getD 0).toNat + 65536 - (parseHdr d).cmFirst) % 65536 * (parseHdr d).cmBytes) (parseHdr d).cmBytes)
  intro i hi
  rw [← hil] at hi
  unfold resolve storedIndex
  rw [if_pos hmap, if_pos hdep', at!_ok idx i hi]
  simp only [Res.ok_bind]
  obtain ⟨b, hb⟩ : ∃ b, b = (idx[i]?).getD 0 := ⟨_, rfl⟩
  rw [← hb]
  have hbm : b ∈ idx := by
    rw [hb, List.getElem?_eq_getElem hi]; exact List.getElem_mem hi
  obtain ⟨hlo, hhi⟩ := hin' b hbm
  have hlen5 : 0 < le16 d 5 := by omega
  have hcb : (parseHdr d).cmBytes = (byteAt d 7 + 7) / 8 := by
    unfold Hdr.cmBytes; rw [if_pos ⟨hcm, hlen5⟩]; rfl
  have hcs : (parseHdr d).cmSize = le16 d 5 * (parseHdr d).cmBytes := by
    unfold Hdr.cmSize; rw [if_pos ⟨hcm, hlen5⟩]; rfl
  have hcf : (parseHdr d).cmFirst = le16 d 3 := rfl
  have hb256 := UInt8.toNat_lt b
  apply bgra_ok
  · omega
  · have e : (b.toNat + 65536 - (parseHdr d).cmFirst) % 65536 = b.toNat - le16 d 3 := by
      rw [hcf]; omega
    rw [e, List.length_take, List.length_drop, hcs]
    have h1 : (b.toNat - le16 d 3 + 1) * (parseHdr d).cmBytes ≤ le16 d 5 * (parseHdr d).cmBytes :=
      Nat.mul_le_mul_right _ (by omega)
    rw [Nat.succ_mul] at h1
    unfold dataStart at hds
    rw [hcs] at hds
    omega

/-! ## C73: pixels land where they belong -/

/-- **C73.** Uncompressed true colour (24 or 32 bits): the result's pixel `(x, y)` is the stored pixel of row `y`
(top-origin flag set) or `height-1-y` (clear), with blue/green/red(/alpha) bytes reordered. -/
theorem C73_truecolor (maxAlloc : Nat) (d : List Byte) (r : Raw) (h : readRaw maxAlloc d = .ok r)
    (hty : byteAt d 2 = 2) (hdep : byteAt d 16 = 24 ∨ byteAt d 16 = 32) :
    r.width = le16 d 12 ∧ r.height = le16 d 14 ∧ r.channels = byteAt d 16 / 8 ∧
    ∀ x y, x < le16 d 12 → y < le16 d 14 →
      let row := if byteAt d 17 / 32 % 2 = 1 then y else le16 d 14 - 1 - y
      let base := dataStart (parseHdr d) + (row * le16 d 12 + x) * (byteAt d 16 / 8)
      base + byteAt d 16 / 8 ≤ d.length ∧
      r.channel x y 0 = d[base + 2]? ∧ r.channel x y 1 = d[base + 1]? ∧ r.channel x y 2 = d[base]? ∧
      (byteAt d 16 = 32 → r.channel x y 3 = d[base + 3]?) := by
  rcases readRaw_cases maxAlloc d with h' | ⟨_, hds, _, h'⟩
  · rw [h'] at h; simp at h
  rw [h'] at h
  have htype : (parseHdr d).imageType = 2 := hty
  have hmap : (parseHdr d).mapped = false := by unfold Hdr.mapped; rw [htype]; rfl
  have hrle : (parseHdr d).rle = false := by unfold Hdr.rle; rw [htype]; rfl
  have hng : (parseHdr d).gray = false := by unfold Hdr.gray; rw [htype]; rfl
  have hdep' : (parseHdr d).depth = byteAt d 16 := rfl
  have hib : (parseHdr d).indexBytes = byteAt d 16 / 8 := by
    unfold Hdr.indexBytes Hdr.fileChannels; rw [hmap, hng, hdep']; rfl
  have hal : (parseHdr d).alpha = decide (byteAt d 16 = 32) := by
    unfold Hdr.alpha; rw [hmap, hng, hdep']; rfl
  have hoc : (parseHdr d).outChannels = byteAt d 16 / 8 := by
    unfold Hdr.outChannels; rw [hal]; rcases hdep with e | e <;> rw [e] <;> rfl
  unfold indices at h
  rw [hrle] at h
  simp only [Bool.false_eq_true, if_false] at h
  by_cases hlen : (List.drop (dataStart (parseHdr d)) d).length <
      (parseHdr d).width * (parseHdr d).height * (parseHdr d).indexBytes
  · rw [if_pos hlen] at h; simp at h
  rw [if_neg hlen, Res.ok_bind] at h
  obtain ⟨idx, hidx⟩ : ∃ idx, idx = (d.drop (dataStart (parseHdr d))).take
    ((parseHdr d).width * (parseHdr d).height * (parseHdr d).indexBytes) := ⟨_, rfl⟩
  rw [← hidx] at h
  have hil : idx.length = (parseHdr d).width * (parseHdr d).height * (parseHdr d).indexBytes := by
    rw [hidx, List.length_take]; omega
  by_cases ha : maxAlloc < (parseHdr d).width * (parseHdr d).height * (parseHdr d).outChannels
  · unfold convert at h; rw [if_pos ha] at h; simp at h
  obtain ⟨data, hd, hpix⟩ := convert_ok maxAlloc (parseHdr d)
    ((d.drop (18 + (parseHdr d).idLength)).take (parseHdr d).cmSize) idx (directVal (parseHdr d) idx)
    (fun i hi => resolve_direct _ _ _ hmap (Or.inr (by rw [hdep']; omega)) _ i hil hi) (by omega)
  rw [hd] at h
  injection h with h
  subst h
  refine ⟨rfl, rfl, hoc, ?_⟩
  intro x y hx hy row base
  have hsr : srcRow (parseHdr d) y = row := by
    show (if decide (byteAt d 17 / 32 % 2 = 1) = true then y else le16 d 14 - 1 - y) = row
    simp only [decide_eq_true_eq]
    rfl
  have hsp := srcPixel_lt (parseHdr d) x y hx hy
  rw [hsr] at hsp
  have hbound : (row * le16 d 12 + x) * (byteAt d 16 / 8) + byteAt d 16 / 8 ≤ idx.length := by
    have := Nat.mul_le_mul_right (byteAt d 16 / 8) hsp
    rw [Nat.succ_mul] at this
    rw [hil, hib]
    exact this
  have hget : ∀ k, (row * le16 d 12 + x) * (byteAt d 16 / 8) + k < idx.length →
      some ((idx[(row * le16 d 12 + x) * (byteAt d 16 / 8) + k]?).getD 0) = d[base + k]? := by
    intro k hk
    have e : idx[(row * le16 d 12 + x) * (byteAt d 16 / 8) + k]? = d[base + k]? := by
      rw [hidx, List.getElem?_take, if_pos (by rw [← hil]; exact hk), List.getElem?_drop]
      show d[dataStart (parseHdr d) + ((row * le16 d 12 + x) * (byteAt d 16 / 8) + k)]? =
        d[dataStart (parseHdr d) + (row * le16 d 12 + x) * (byteAt d 16 / 8) + k]?
      rw [Nat.add_assoc]
    rw [← e, List.getElem?_eq_getElem hk]; rfl
  have hch : ∀ c, c < byteAt d 16 / 8 → Raw.channel ⟨(parseHdr d).width, (parseHdr d).height,
      (parseHdr d).outChannels, (parseHdr d).alpha, data⟩ x y c =
      some (((bgraVal idx ((row * le16 d 12 + x) * (byteAt d 16 / 8)) (byteAt d 16 / 8))[c]?).getD 0) := by
    intro c hc
    unfold Raw.channel
    simp only
    rw [hpix x y c hx hy (by rw [hoc]; exact hc), hsr]
    unfold directVal
    rw [hng]
    rfl
  have h3 : 3 ≤ byteAt d 16 / 8 := by rcases hdep with e | e <;> rw [e] <;> decide
  have hl2 : base + byteAt d 16 / 8 ≤ d.length := by
    have : idx.length ≤ d.length - dataStart (parseHdr d) := by
      rw [hidx, List.length_take, List.length_drop]; omega
    show dataStart (parseHdr d) + (row * le16 d 12 + x) * (byteAt d 16 / 8) + byteAt d 16 / 8 ≤ d.length
    omega
  refine ⟨hl2, ?_, ?_, ?_, ?_⟩
  · rw [hch 0 (by omega)]; exact hget 2 (by omega)
  · rw [hch 1 (by omega)]; exact hget 1 (by omega)
  · rw [hch 2 (by omega)]; exact hget 0 (by omega)
  · intro h32
    rw [hch 3 (by rw [h32]; decide)]
    have e : bgraVal idx ((row * le16 d 12 + x) * (byteAt d 16 / 8)) (byteAt d 16 / 8) =
      [_, _, _, _] := rfl
    have h4 : 4 ≤ byteAt d 16 / 8 := by rw [h32]; decide
    rw [← hget 3 (by rw [h32] at hbound ⊢; omega)]
    unfold bgraVal
    rw [if_pos h4]; rfl

/-- **C73.** Run-length coding: a pixel stream cut into any packets (runs and raw packets of 1 to 128 pixels) that
together hold exactly the image's pixels decodes to these pixels, whatever follows in the file. -/
theorem C73_rle (maxAlloc : Nat) (h : Hdr) (ps : List Packet) (tail : List Byte) (hrle : h.rle = true)
    (hib : 0 < h.indexBytes) (hwf : ∀ p ∈ ps, p.WF h.indexBytes)
    (hn : (pixelsOf ps).length = h.width * h.height)
    (ha : h.width * h.height * h.indexBytes ≤ maxAlloc) :
    indices maxAlloc h (encodeAll ps ++ tail) = .ok (pixelsOf ps).flatten := by
  unfold indices
  rw [if_pos hrle, if_neg (by omega)]
  rw [rle_packets h.indexBytes (h.width * h.height) hib tail ps [] 0 hwf (by omega)]
  rfl

/-- **C73.** Hence an RLE file and the uncompressed file of the same pixels give the same picture. -/
theorem C73_rle_eq_raw (maxAlloc : Nat) (h h' : Hdr) (ps : List Packet) (tail tail' : List Byte)
    (hrle : h.rle = true) (hraw : h'.rle = false) (hw : h'.width = h.width) (hh : h'.height = h.height)
    (hib' : h'.indexBytes = h.indexBytes)
    (hib : 0 < h.indexBytes) (hwf : ∀ p ∈ ps, p.WF h.indexBytes)
    (hn : (pixelsOf ps).length = h.width * h.height)
    (ha : h.width * h.height * h.indexBytes ≤ maxAlloc) :
    indices maxAlloc h (encodeAll ps ++ tail) = indices maxAlloc h' ((pixelsOf ps).flatten ++ tail') := by
  rw [C73_rle maxAlloc h ps tail hrle hib hwf hn ha]
  have hpx : ∀ p ∈ pixelsOf ps, p.length = h.indexBytes := by
    intro p hp
    unfold pixelsOf at hp
    rw [List.mem_flatten] at hp
    obtain ⟨l, hl, hpl⟩ := hp
    obtain ⟨q, hq, rfl⟩ := List.mem_map.1 hl
    have := hwf q hq
    cases q with
    | run k px =>
      obtain ⟨_, _, e⟩ := this
      rw [List.eq_of_mem_replicate hpl]; exact e
    | raw pxs => exact this.2.2 p hpl
  have hl := flatten_len h.indexBytes _ hpx
  unfold indices
  rw [hraw]
  simp only [Bool.false_eq_true, if_false]
  rw [hw, hh, hib', ← hn, ← hl, if_neg (by simp), List.take_left]

/-- Non-vacuity: a 2x1 RLE file with a run packet, and a top-down 24-bit file. -/
example : ∃ h, h = parseHdr (header 10 2 1 24) ∧ h.rle = true ∧ h.indexBytes = 3 ∧
    (∀ p ∈ [Packet.run 2 [1, 2, 3]], p.WF h.indexBytes) ∧ (pixelsOf [Packet.run 2 [1, 2, 3]]).length = h.width * h.height :=
  ⟨_, rfl, by decide, by decide, by simp [Packet.WF]; decide, by decide⟩
example : readRaw 1000 (header 2 1 2 24 ++ [1, 2, 3, 4, 5, 6]) = .ok ⟨1, 2, 3, false, [6, 5, 4, 3, 2, 1]⟩ := by rfl
example : readRaw 1000 ([0, 1, 1, 0, 0, 1, 0, 24, 0, 0, 0, 0, 1, 0, 1, 0, 8, 0] ++ [10, 20, 30] ++ [0]) =
    .ok ⟨1, 1, 3, false, [30, 20, 10]⟩ := by rfl

end Huira.ImageIO.Tga
