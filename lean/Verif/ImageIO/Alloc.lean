import Verif.ImageIO.HdrProps
import Verif.ImageIO.TgaProps
/-!
# The image built from a decoded HDR or TGA file (C22, C23)

The raw readers compute sizes as `std::size_t`; the `Image` constructor they feed multiplies width and height as `int`
(`include/huira_impl/images/image.ipp` 29-33, 44-48).
-/
set_option linter.unusedSimpArgs false
namespace Huira.ImageIO

/-- `Image(Resolution)` (image.ipp 29-33): the `int` product of width and height, converted to `std::size_t`. -/
def imageAlloc (w h : Nat) : Res Nat := do
  let n ← i32 ((w : Int) * h)
  .ok (toSizeT n)

theorem imageAlloc_ok (w h : Nat) (hs : w * h < 2147483648) : imageAlloc w h = .ok (w * h) := by
  unfold imageAlloc i32
  have h0 : (0 : Int) ≤ (w : Int) * h := Int.mul_nonneg (Int.natCast_nonneg _) (Int.natCast_nonneg _)
  have h1 : (w : Int) * h < 2147483648 := by exact_mod_cast hs
  rw [if_pos ⟨by omega, h1⟩, Res.ok_bind]
  unfold toSizeT
  rw [Int.emod_eq_of_lt h0 (by omega)]
  congr 1

theorem imageAlloc_ub (w h : Nat) (hs : 2147483648 ≤ w * h) : imageAlloc w h = .ub := by
  unfold imageAlloc i32
  rw [if_neg]
  · rfl
  · rintro ⟨_, h2⟩
    have : w * h < 2147483648 := by exact_mod_cast h2
    omega

namespace Hdr

/-- `read_image_hdr` (hdr_io.ipp 292-311): the raw reader, the image, one colour per pixel. -/
def readImage (maxAlloc : Nat) (tok : List Byte → Option (Int × List Byte × Int)) (d : List Byte) :
    Res (Nat × Nat × List (ℚ × ℚ × ℚ)) := do
  let i ← readRaw maxAlloc tok d
  let _ ← imageAlloc i.width i.height
  let px ← mapRes (fun q : Nat × Nat => match i.color q.1 q.2 with | some c => .ok c | none => Res.ub) (grid i.width i.height)
  .ok (i.width, i.height, px)

theorem read_ok (maxAlloc : Nat) (tok : List Byte → Option (Int × List Byte × Int)) (d : List Byte) (i : Image)
    (h : readRaw maxAlloc tok d = .ok i) (hs : i.width * i.height < 2147483648) :
    ∃ px, readImage maxAlloc tok d = .ok (i.width, i.height, px) ∧ px.length = i.width * i.height := by
  obtain ⟨h1, h2, h3, h4⟩ := C23_size maxAlloc tok d i h
  have : mapRes (fun q : Nat × Nat => match i.color q.1 q.2 with | some c => .ok c | none => Res.ub) (grid i.width i.height) =
      .ok ((grid i.width i.height).map fun q => (i.color q.1 q.2).getD (0, 0, 0)) := by
    apply mapRes_ok
    intro q hq
    obtain ⟨hx, hy⟩ := (mem_grid _ _ _).1 hq
    obtain ⟨c, hc⟩ := Option.isSome_iff_exists.1 (h4 q.1 q.2 hx hy)
    rw [hc]; rfl
  refine ⟨_, by unfold readImage; rw [h, Res.ok_bind, imageAlloc_ok _ _ hs, Res.ok_bind, this, Res.ok_bind], ?_⟩
  rw [List.length_map]
  have hg : ∀ w h : Nat, (grid w h).length = h * w := by
    intro w h
    induction h with
    | zero => simp [grid]
    | succ h ih =>
      have : grid w (h + 1) = grid w h ++ (List.range w).map fun x => (x, h) := by
        simp [grid, List.range_succ, List.flatMap_append]
      rw [this, List.length_append, ih]; simp [Nat.succ_mul]
  rw [hg, Nat.mul_comm]

/-- **C23 (partial).**  On a machine that cannot allocate 24 GiB for the decoded pixels, no byte string makes the reader
misbehave and what is returned has exactly width × height pixels. -/
theorem C23_image_partial (maxAlloc : Nat) (hm : maxAlloc < 12 * 2147483648) (tok : List Byte → Option (Int × List Byte × Int)) (d : List Byte) :
    readImage maxAlloc tok d = .throw ∨ ∃ w h px, readImage maxAlloc tok d = .ok (w, h, px) ∧ px.length = w * h ∧ 0 < w ∧ 0 < h := by
  cases hr : readRaw maxAlloc tok d with
  | throw => left; unfold readImage; rw [hr]; rfl
  | ub => exact absurd hr (C23_safe maxAlloc tok d)
  | ok i =>
    right
    obtain ⟨h1, h2, h3, h4⟩ := C23_size maxAlloc tok d i hr
    have hs : i.width * i.height < 2147483648 := by
      have : i.width * i.height * 12 ≤ maxAlloc := by
        unfold readRaw at hr
        split at hr
        · simp at hr
        · split at hr
          · simp at hr
          · split at hr
            · simp at hr
            · split at hr
              · simp at hr
              · rename_i w h _
                split at hr
                · simp at hr
                · split at hr
                  · simp at hr
                  · rename_i hle
                    rw [Res.bind_ok_iff] at hr
                    obtain ⟨px, _, e⟩ := hr
                    injection e with e
                    subst e
                    simp only
                    omega
      omega
    obtain ⟨px, hp, hl⟩ := read_ok maxAlloc tok d i hr hs
    exact ⟨_, _, px, hp, hl, h2, h3⟩

/-- A black line of 32768 pixels. -/
def blackLine : Line := ⟨List.replicate 256 (.lit (List.replicate 128 0)), List.replicate 256 (.lit (List.replicate 128 0)),
  List.replicate 256 (.lit (List.replicate 128 0)), List.replicate 256 (.lit (List.replicate 128 0))⟩

theorem blackLine_wf : blackLine.WF 32768 := by
  have h1 : ∀ p ∈ List.replicate 256 (Packet.lit (List.replicate 128 (0 : Byte))), p.WF := by
    intro p hp
    rw [List.eq_of_mem_replicate hp]
    show 1 ≤ (List.replicate 128 (0 : Byte)).length ∧ (List.replicate 128 (0 : Byte)).length ≤ 128
    rw [List.length_replicate]; omega
  have h2 : (valuesOf (List.replicate 256 (Packet.lit (List.replicate 128 (0 : Byte))))).length = 32768 := by
    unfold valuesOf
    rw [List.map_replicate, List.length_flatten, List.map_replicate, show (Packet.lit (List.replicate 128 (0 : Byte))).values = List.replicate 128 0 from rfl,
      List.length_replicate, List.sum_replicate_nat]
  exact ⟨h1, h1, h1, h1, h2, h2, h2, h2⟩

/-- `#?`, an empty line, `-Y 65536 +X 32768`, then 65536 black lines. -/
def bigFile : List Byte := [35, 63, 10, 10] ++ ([45, 89, 32, 54, 53, 53, 51, 54, 32, 43, 88, 32, 51, 50, 55, 54, 56, 10] ++
  (((List.replicate 65536 blackLine).map (Line.encode 32768)).flatten ++ []))

/-- **C23 (violated).**  On a machine with enough memory, a well-formed HDR file of 32768 × 65536 pixels (run-length coded, so
a small file suffices) makes the product of width and height overflow `int`: undefined behaviour. -/
theorem C23_image_violated (tok : List Byte → Option (Int × List Byte × Int))
    (ht : tok [32, 54, 53, 53, 51, 54, 32, 43, 88, 32, 51, 50, 55, 54, 56] = some (65536, [43, 88], 32768)) :
    ∃ maxAlloc d, readImage maxAlloc tok d = .ub := by
  refine ⟨26000000000, bigFile, ?_⟩
  have hrows := C24_roundtrip 32768 (by omega) [] (List.replicate 65536 blackLine) (List.replicate (32768 * 4) 0)
    (by intro l hl; rw [List.eq_of_mem_replicate hl]; exact blackLine_wf) (by rw [List.length_replicate])
  rw [List.length_replicate] at hrows
  generalize hb : ((List.replicate 65536 blackLine).map (Line.encode 32768)).flatten ++ [] = body at hrows
  generalize ((List.replicate 65536 blackLine).map fun l => (List.range 32768).map l.pixel).flatten = px at hrows
  have hraw : readRaw 26000000000 tok bigFile = .ok ⟨32768, 65536, px⟩ := by
    unfold bigFile
    rw [hb]
    have l1 : readLine ([35, 63, 10, 10] ++ ([45, 89, 32, 54, 53, 53, 51, 54, 32, 43, 88, 32, 51, 50, 55, 54, 56, 10] ++ body)) =
        (some [35, 63], 10 :: ([45, 89, 32, 54, 53, 53, 51, 54, 32, 43, 88, 32, 51, 50, 55, 54, 56, 10] ++ body)) := by
      simp [readLine, readLineFrom]
    have l2 : ∀ n, skipHeader (n + 1) (10 :: ([45, 89, 32, 54, 53, 53, 51, 54, 32, 43, 88, 32, 51, 50, 55, 54, 56, 10] ++ body)) =
        [45, 89, 32, 54, 53, 53, 51, 54, 32, 43, 88, 32, 51, 50, 55, 54, 56, 10] ++ body := by
      intro n
      simp [skipHeader, readLine, readLineFrom]
    have l3 : readLine ([45, 89, 32, 54, 53, 53, 51, 54, 32, 43, 88, 32, 51, 50, 55, 54, 56, 10] ++ body) =
        (some [45, 89, 32, 54, 53, 53, 51, 54, 32, 43, 88, 32, 51, 50, 55, 54, 56], body) := by
      simp [readLine, readLineFrom]
    have l4 : resolution tok [45, 89, 32, 54, 53, 53, 51, 54, 32, 43, 88, 32, 51, 50, 55, 54, 56] = some (32768, 65536) := by
      simp [resolution, parseRes, ht]
    unfold readRaw
    rw [l1]
    simp only
    rw [if_neg (by simp), l2, l3]
    simp only
    rw [l4]
    simp only
    rw [if_neg (by omega), if_neg (by show ¬ (26000000000 < 32768 * 65536 * 12 + 32768 * 4); omega)]
    show (rows 32768 65536 (List.replicate (32768 * 4) 0) body >>= _) = _
    rw [hrows, Res.ok_bind]; rfl
  unfold readImage
  rw [hraw, Res.ok_bind, imageAlloc_ub _ _ (by show 2147483648 ≤ 32768 * 65536; omega), Res.ub_bind]

end Hdr

namespace Tga

/-- `read_image_tga` (tga_io.ipp 275-317): the raw reader, the images, the bytes of each pixel. -/
def readImage (maxAlloc : Nat) (d : List Byte) : Res (Nat × Nat × List (List Byte)) := do
  let r ← readRaw maxAlloc d
  let _ ← imageAlloc r.width r.height
  let px ← mapRes (fun q : Nat × Nat => mapRes (fun c => match r.channel q.1 q.2 c with | some v => Res.ok v | none => .ub)
    (List.range (if r.hasAlpha then 4 else 3))) (grid r.width r.height)
  .ok (r.width, r.height, px)

/-- The header of a grey file of 65535 × 65535 pixels. -/
def bigHeader : List Byte := [0, 0, 3, 0, 0, 0, 0, 0, 0, 0, 0, 0, 255, 255, 255, 255, 8, 0]
def bigHdr : Hdr := ⟨0, 0, 3, 0, 0, 0, 65535, 65535, 8, false⟩

theorem bigHdr_eq (body : List Byte) : parseHdr (bigHeader ++ body) = bigHdr := by
  simp [parseHdr, byteAt, le16, bigHeader, bigHdr]

theorem big_read (body : List Byte) (hl : body.length = 4294836225) :
    ∃ r, readRaw 13000000000 (bigHeader ++ body) = .ok r ∧ r.width = 65535 ∧ r.height = 65535 := by
  have hlen : (bigHeader ++ body).length = 4294836225 + 18 := by
    rw [List.length_append, hl, Nat.add_comm]; rfl
  have hib : bigHdr.indexBytes = 1 := by decide
  unfold readRaw
  rw [if_neg (by omega), bigHdr_eq]
  simp only
  rw [if_neg (by decide), if_neg (by show ¬ _ < 18 + 0; omega), if_neg (by show ¬ _ < 18 + 0 + 0; omega)]
  have hdrop : List.drop (18 + bigHdr.idLength + bigHdr.cmSize) (bigHeader ++ body) = body := by
    show List.drop 18 (bigHeader ++ body) = body
    rfl
  rw [hdrop]
  have hi : indices 13000000000 bigHdr body = .ok body := by
    unfold indices
    rw [if_neg (by decide), hib]
    show (if body.length < 65535 * 65535 * 1 then _ else _) = _
    rw [if_neg (by omega)]
    show Res.ok (body.take (65535 * 65535 * 1)) = _
    rw [List.take_of_length_le (by omega)]
  rw [hi, Res.ok_bind]
  obtain ⟨data, hd, _⟩ := convert_ok 13000000000 bigHdr
    (List.take bigHdr.cmSize (List.drop (18 + bigHdr.idLength) (bigHeader ++ body))) body (directVal bigHdr body)
    (fun i hi => resolve_direct _ _ _ (by decide) (Or.inl (by decide)) (65535 * 65535) i (by rw [hib]; omega) hi)
    (by show 65535 * 65535 * 3 ≤ 13000000000; omega)
  exact ⟨_, hd, rfl, rfl⟩

/-- **C22 (violated).**  On a machine with enough memory, an uncompressed grey file of 65535 × 65535 pixels overflows the
`int` product of width and height. -/
theorem C22_image_overflow : ∃ maxAlloc d, readImage maxAlloc d = .ub := by
  obtain ⟨body, hl⟩ : ∃ body : List Byte, body.length = 4294836225 := ⟨_, List.length_replicate (a := 0)⟩
  obtain ⟨r, h1, h2, h3⟩ := big_read body hl
  refine ⟨13000000000, bigHeader ++ body, ?_⟩
  unfold readImage
  rw [h1, Res.ok_bind, imageAlloc_ub _ _ (by rw [h2, h3]; omega), Res.ub_bind]

end Tga
end Huira.ImageIO
