import Mathlib.Order.Nat
import Mathlib.Order.MinMax
import Verif.Stars.CatalogLemmas
/-!
# Star catalogue properties C11-C13, C16

Specification vocabulary: `mag s : Option K` is the star's visual magnitude (`none` = NaN, `K` the ordered
floats); `magLe mag m s` says the star has a number as magnitude and it is `≤ m`.
-/
set_option linter.unusedSimpArgs false
namespace Huira.Stars

variable {Star K : Type} [LinearOrder K]

/-- A codec, magnitude and sort used for the non-vacuity examples: one-byte stars, 255 is NaN. -/
def byteCodec : Codec UInt8 where
  size := 1
  size_pos := by decide
  enc s := [s]
  dec l := l.headD 0
  enc_len _ := rfl
  dec_enc _ := rfl

def byteMag (s : UInt8) : Option Nat := if s = 255 then none else some s.toNat

theorem mono_of_sorted (mag : Star → Option K) (m : K) (l : List Star) (hv : ∀ s ∈ l, (mag s).isSome)
    (hs : l.Pairwise (fun a b => ∀ x y, mag a = some x → mag b = some y → x ≤ y)) :
    ∀ i j (_ : i ≤ j) (hj : j < l.length), magLe mag m l[j] = true → magLe mag m (l[i]'(by omega)) = true := by
  intro i j hij hj h
  rcases Nat.lt_or_eq_of_le hij with hlt | heq
  · have hp := List.pairwise_iff_getElem.1 hs i j (by omega) hj hlt
    have hi := hv (l[i]'(by omega)) (List.getElem_mem _)
    obtain ⟨x, hx⟩ := Option.isSome_iff_exists.1 hi
    have hj' := hv l[j] (List.getElem_mem _)
    obtain ⟨y, hy⟩ := Option.isSome_iff_exists.1 hj'
    simp only [magLe, hy, decide_eq_true_eq] at h
    simp only [magLe, hx, decide_eq_true_eq]
    exact le_trans (hp x y hx hy) h
  · subst heq; exact h

theorem take_eq_filter {α : Type} (p : α → Bool) : ∀ (l : List α) (k : Nat), k ≤ l.length →
    (∀ i (_ : i < k) (hl : i < l.length), p l[i] = true) → (∀ i (_ : k ≤ i) (hl : i < l.length), p l[i] = false) →
    l.take k = l.filter p
  | [], _, _, _, _ => by simp
  | a :: l, 0, _, _, h2 => by
    have : (a :: l).filter p = [] := by
      rw [List.filter_eq_nil_iff]
      intro x hx
      obtain ⟨i, hi, rfl⟩ := List.mem_iff_getElem.1 hx
      simp [h2 i (Nat.zero_le _) hi]
    rw [this]; rfl
  | a :: l, k + 1, hk, h1, h2 => by
    have ha : p a = true := h1 0 (by omega) (by simp)
    rw [List.take_succ_cons, List.filter_cons, if_pos ha]
    congr 1
    refine take_eq_filter p l k (by simpa using hk) (fun i hi hl => ?_) (fun i hi hl => ?_)
    · have := h1 (i + 1) (by omega) (by simpa using hl)
      simpa using this
    · have := h2 (i + 1) (by omega) (by simpa using hl)
      simpa using this

theorem pow64 : (2 ^ 64 : Nat) = 256 ^ 8 := by decide
theorem lenBound (n : Nat) (h : n < 2 ^ 64) : n < 256 ^ 8 := by rw [← pow64]; exact h

/-- The content of a file written from `stars`: the sorted list of stars with a magnitude. -/
theorem read_write (c : Codec Star) (mag : Star → Option K) (sort : List Star → List Star)
    (hsort : SortSpec mag sort) (dflt : Star) (t : Byte) (stars : List Star) (hsz : stars.length < 2 ^ 64) (m : K) :
    read c mag dflt m (write c mag sort t stars) =
      .catalog t ((sort (stars.filter (fun s => (mag s).isSome))).filter (magLe mag m)) := by
  generalize hl : sort (stars.filter (fun s => (mag s).isSome)) = l
  have hperm : l.Perm (stars.filter (fun s => (mag s).isSome)) := hl ▸ hsort.perm _
  have hv : ∀ s ∈ l, (mag s).isSome := by
    intro s hs
    have := (hperm.mem_iff).1 hs
    exact (List.mem_filter.1 this).2
  have hso : l.Pairwise (fun a b => ∀ x y, mag a = some x → mag b = some y → x ≤ y) := by
    rw [← hl]
    apply hsort.sorted
    intro s hs
    exact (List.mem_filter.1 hs).2
  have hlen : l.length < 256 ^ 8 := lenBound _ (Nat.lt_of_le_of_lt
    (Nat.le_trans (Nat.le_of_eq hperm.length_eq) (List.length_filter_le _ _)) hsz)
  obtain ⟨k, hk1, hk2, hk3, hk4⟩ := read_valid c mag dflt m t l hlen (mono_of_sorted mag m l hv hso)
  have hw : write c mag sort t stars = headerBytes t l.length ++ (l.map c.enc).flatten := by
    simp only [write, hl]
  rw [hw, hk1, take_eq_filter (magLe mag m) l k hk2 hk3 hk4]

/-- **C11.** Writing any star list and reading it back with the default limit (a value no magnitude exceeds)
returns the same catalogue type and a list that is a permutation of the input stars with a number as magnitude,
in non-decreasing magnitude order. -/
theorem C11_round_trip (c : Codec Star) (mag : Star → Option K) (sort : List Star → List Star)
    (hsort : SortSpec mag sort) (dflt : Star) (t : Byte) (stars : List Star) (hsz : stars.length < 2 ^ 64)
    (inf : K) (hinf : ∀ x : K, x ≤ inf) :
    ∃ out, read c mag dflt inf (write c mag sort t stars) = .catalog t out ∧
      out.Perm (stars.filter (fun s => (mag s).isSome)) ∧
      out.Pairwise (fun a b => ∃ x y, mag a = some x ∧ mag b = some y ∧ x ≤ y) := by
  refine ⟨sort (stars.filter (fun s => (mag s).isSome)), ?_, hsort.perm _, ?_⟩
  · rw [read_write c mag sort hsort dflt t stars hsz inf]
    congr 1
    rw [List.filter_eq_self]
    intro s hs
    have h1 := (hsort.perm _).mem_iff.1 hs
    obtain ⟨x, hx⟩ := Option.isSome_iff_exists.1 (List.mem_filter.1 h1).2
    simp [magLe, hx, hinf]
  · have h := hsort.sorted (stars.filter (fun s => (mag s).isSome)) (fun s hs => (List.mem_filter.1 hs).2)
    rw [List.pairwise_iff_getElem] at h ⊢
    intro i j hi hj hij
    have key : ∀ k (hk : k < (sort (stars.filter (fun s => (mag s).isSome))).length),
        ((mag (sort (stars.filter (fun s => (mag s).isSome)))[k]).isSome) := by
      intro k hk
      have h1 := (hsort.perm (stars.filter (fun s => (mag s).isSome))).mem_iff.1 (List.getElem_mem hk)
      exact (List.mem_filter.1 h1).2
    obtain ⟨x, hx⟩ := Option.isSome_iff_exists.1 (key i hi)
    obtain ⟨y, hy⟩ := Option.isSome_iff_exists.1 (key j hj)
    exact ⟨x, y, hx, hy, h i j hi hj hij x y hx hy⟩

/-- C11, header: every written file starts with `HRSC`, version 1, eight zero bytes, the catalogue type padded to eight
bytes and the number of stored stars in eight little-endian bytes, followed by the records and nothing else. -/
theorem C11_layout (c : Codec Star) (mag : Star → Option K) (sort : List Star → List Star)
    (hsort : SortSpec mag sort) (t : Byte) (stars : List Star) :
    ∃ out : List Star, out.Perm (stars.filter (fun s => (mag s).isSome)) ∧
      write c mag sort t stars = [0x48, 0x52, 0x53, 0x43, 1, 0, 0, 0, 0, 0, 0, 0, 0, 0, 0, 0, t, 0, 0, 0, 0, 0, 0, 0] ++
        leBytes 8 out.length ++ (out.map c.enc).flatten := by
  refine ⟨_, hsort.perm _, ?_⟩
  unfold write headerBytes
  rfl

/-- **C12.** Reading with any limit `m` the file written from any list returns exactly the stars that an
unlimited read returns and whose magnitude is `≤ m`, in the same (file) order. -/
theorem C12_limited_read (c : Codec Star) (mag : Star → Option K) (sort : List Star → List Star)
    (hsort : SortSpec mag sort) (dflt : Star) (t : Byte) (stars : List Star) (hsz : stars.length < 2 ^ 64)
    (inf : K) (hinf : ∀ x : K, x ≤ inf) (m : K) :
    ∃ all out, read c mag dflt inf (write c mag sort t stars) = .catalog t all ∧
      read c mag dflt m (write c mag sort t stars) = .catalog t out ∧
      out = all.filter (magLe mag m) ∧
      (∀ s, s ∈ out ↔ s ∈ stars ∧ ∃ x, mag s = some x ∧ x ≤ m) := by
  have hr := fun m => read_write c mag sort hsort dflt t stars hsz m
  refine ⟨_, _, hr inf, hr m, ?_, ?_⟩
  · rw [List.filter_filter]
    congr 1
    funext s
    cases hs : mag s <;> simp [magLe, hs, hinf]
  · intro s
    rw [List.mem_filter, (hsort.perm _).mem_iff, List.mem_filter]
    constructor
    · rintro ⟨⟨h1, h2⟩, h3⟩
      obtain ⟨x, hx⟩ := Option.isSome_iff_exists.1 h2
      exact ⟨h1, x, hx, by simpa [magLe, hx] using h3⟩
    · rintro ⟨h1, x, hx, hle⟩
      exact ⟨⟨h1, by simp [hx]⟩, by simp [magLe, hx, hle]⟩

/-- A sort meeting `SortSpec` exists (merge sort by magnitude), so C11/C12 are not vacuous. -/
def byteSort (l : List UInt8) : List UInt8 := l.mergeSort (fun a b => decide (a.toNat ≤ b.toNat))

theorem byteSort_spec : SortSpec byteMag byteSort where
  perm l := List.mergeSort_perm l _
  sorted l _ := by
    have h := List.pairwise_mergeSort (le := fun a b : UInt8 => decide (a.toNat ≤ b.toNat))
      (fun a b c h1 h2 => by simp at *; omega) (fun a b => by simp; omega) l
    refine h.imp ?_
    intro a b hab x y hx hy
    unfold byteMag at hx hy
    split at hx <;> simp at hx
    split at hy <;> simp at hy
    simp at hab
    omega

example : ∃ all out, read byteCodec byteMag 255 1000 (write byteCodec byteMag byteSort 1 [7, 255, 3, 7, 9]) =
      .catalog 1 all ∧ read byteCodec byteMag 255 7 (write byteCodec byteMag byteSort 1 [7, 255, 3, 7, 9]) =
      .catalog 1 out ∧ 7 ∈ out ∧ 9 ∉ out := by
  obtain ⟨o, h, hm⟩ : ∃ o, read byteCodec byteMag 255 7 (write byteCodec byteMag byteSort 1 [7, 255, 3, 7, 9]) =
      .catalog 1 o ∧ (∀ s, s ∈ o ↔ s ∈ ([7, 255, 3, 7, 9] : List UInt8) ∧ ∃ x, byteMag s = some x ∧ x ≤ 7) := by
    refine ⟨_, read_write byteCodec byteMag byteSort byteSort_spec 255 1 [7, 255, 3, 7, 9] (by decide) 7, ?_⟩
    intro s
    rw [List.mem_filter, (byteSort_spec.perm _).mem_iff, List.mem_filter]
    constructor
    · rintro ⟨⟨h1, h2⟩, h3⟩
      obtain ⟨x, hx⟩ := Option.isSome_iff_exists.1 h2
      exact ⟨h1, x, hx, by simpa [magLe, hx] using h3⟩
    · rintro ⟨h1, x, hx, hle⟩
      exact ⟨⟨h1, by simp [hx]⟩, by simp [magLe, hx, hle]⟩
  refine ⟨_, o, read_write byteCodec byteMag byteSort byteSort_spec 255 1 [7, 255, 3, 7, 9] (by decide) 1000, h, ?_, ?_⟩
  · exact (hm 7).2 ⟨by simp, 7, by simp [byteMag], by omega⟩
  · intro h9
    obtain ⟨_, x, hx, hle⟩ := (hm 9).1 h9
    simp [byteMag] at hx
    omega

/-! ### C13 -/

/-- The number of records a file announces (bytes 24-31, little endian). -/
def announced (file : List Byte) : Nat := ofLeBytes ((file.drop 24).take 8)

/-- Record `i` of a file: the `size` bytes at `32 + i * size`. -/
def fileRecord (c : Codec Star) (file : List Byte) (i : Nat) : Star :=
  c.dec ((file.drop (32 + i * c.size)).take c.size)

/-- C13 as stated: reading succeeds only for files with the right magic and version that are long enough for
their header and the announced table, and returns only stars of the file. -/
def C13_full (c : Codec Star) (mag : Star → Option K) (dflt : Star) : Prop :=
  ∀ (m : K) (file : List Byte) (t : Byte) (out : List Star), read c mag dflt m file = .catalog t out →
    file.take 5 = [0x48, 0x52, 0x53, 0x43, 1] ∧ 32 ≤ file.length ∧ 32 + announced file * c.size ≤ file.length ∧
    ∀ s ∈ out, ∃ i < announced file, s = fileRecord c file i

/-- **C13 (violated).** For every record layout, the five-byte file `HRSC\x01` is accepted as an empty catalogue. -/
theorem C13_violated [Inhabited K] (c : Codec Star) (mag : Star → Option K) (dflt : Star) :
    ¬ C13_full c mag dflt := by
  intro h
  have := h default [0x48, 0x52, 0x53, 0x43, 1] 0 [] (by
    simp [read, readAt, overlay, headerSize, List.replicate, ofLeBytes, searchLoop, records])
  simp at this

/-- **C13 (violated, phantom stars).** A file announcing three stars but holding two is accepted and the three
stars returned are not in the file (they are default-constructed objects). -/
theorem C13_phantom_stars :
    read byteCodec byteMag 255 100 (headerBytes 1 3 ++ [5, 6]) = .catalog 1 [255, 255, 255] := by
  rfl

/-- **C13 (partial).** For every byte string and every layout: a wrong magic or version, or fewer than five
bytes, is rejected. -/
theorem C13_magic_partial (c : Codec Star) (mag : Star → Option K) (dflt : Star) (m : K) (file : List Byte)
    (h : file.take 5 ≠ [0x48, 0x52, 0x53, 0x43, 1]) : read c mag dflt m file = .throw := by
  unfold read
  have e : (readAt file false 0 (List.replicate headerSize 0)).1 =
      file.take 32 ++ List.replicate (32 - (file.take 32).length) 0 := by
    simp only [readAt, overlay, Bool.false_eq_true, if_false, List.length_replicate, List.drop_zero,
      List.drop_replicate, headerSize]
  generalize readAt file false 0 (List.replicate headerSize 0) = q at e
  obtain ⟨hdr, failed⟩ := q
  simp only at e
  simp only
  split
  · rfl
  · rename_i h1
    split
    · rfl
    · rename_i h2
      exfalso
      apply h
      simp only [ne_eq, Decidable.not_not] at h1 h2
      rcases file with _ | ⟨a, _ | ⟨b, _ | ⟨d, _ | ⟨f, _ | ⟨g, rest⟩⟩⟩⟩⟩
      · subst e; simp at h1
      · subst e; simp [List.replicate] at h1
      · subst e; simp [List.replicate] at h1
      · subst e; simp [List.replicate] at h1
      · subst e; simp [List.replicate] at h2
      · subst e
        simp at h1 h2
        simp [h1, h2]

/-- **C13 (partial).** If the file is long enough for its header and announced table, the result is a prefix of
the stars in the file, so no foreign star is returned; and the whole prefix test holds for every probed limit. -/
theorem C13_contents_partial (c : Codec Star) (mag : Star → Option K) (dflt : Star) (m : K) (file : List Byte)
    (hlen : 32 + announced file * c.size ≤ file.length) (t : Byte) (out : List Star)
    (h : read c mag dflt m file = .catalog t out) :
    ∃ k ≤ announced file, out = (List.range k).map (fileRecord c file) := by
  have hhdr : readAt file false 0 (List.replicate headerSize 0) = (file.take 32, false) := by
    rw [readAt_ok _ _ _ (by simp [headerSize]; omega)]
    simp [headerSize]
  unfold read at h
  rw [hhdr] at h
  simp only at h
  split at h
  · simp at h
  · split at h
    · simp at h
    · have hc : ofLeBytes ((file.take 32).drop 24) = announced file := by
        unfold announced
        rw [List.drop_take]
      rw [hc] at h
      have key : ∀ (fuel : Nat) (temp : List Byte) (low high : Nat), temp.length = c.size → low ≤ high →
          high ≤ announced file →
          ∃ k, searchLoop c mag m file fuel temp false low high = (false, k) ∧ k ≤ announced file := by
        intro fuel
        induction fuel with
        | zero => intro temp low high _ h1 h2; exact ⟨low, rfl, by omega⟩
        | succ fuel ih =>
          intro temp low high ht h1 h2
          simp only [searchLoop]
          by_cases hlt : low < high
          · simp only [hlt, if_true]
            generalize hmid : low + (high - low) / 2 = mid
            have hoff : headerSize + mid * c.size + temp.length ≤ file.length := by
              rw [ht]
              have : (mid + 1) * c.size ≤ announced file * c.size := Nat.mul_le_mul_right _ (by omega)
              rw [Nat.succ_mul] at this
              simp only [headerSize]
              omega
            rw [readAt_ok file temp _ hoff]
            have hl : ((file.drop (headerSize + mid * c.size)).take temp.length).length = c.size := by
              simp; omega
            simp only
            split
            · exact ih _ _ _ hl (by omega) h2
            · exact ih _ _ _ hl (by omega) (by omega)
          · simp only [hlt, if_false]
            exact ⟨low, rfl, by omega⟩
      obtain ⟨k, hk1, hk2⟩ := key (announced file) (c.enc dflt) 0 (announced file) (c.enc_len dflt)
        (Nat.zero_le _) (Nat.le_refl _)
      rw [hk1] at h
      have hb : ((List.replicate k (c.enc dflt)).flatten).length = k * c.size := by
        rw [show List.replicate k (c.enc dflt) = (List.replicate k dflt).map c.enc by simp]
        rw [flatten_len]; simp
      have hks : k * c.size ≤ announced file * c.size := Nat.mul_le_mul_right _ hk2
      rw [readAt_ok _ _ _ (by rw [hb]; simp only [headerSize]; omega)] at h
      simp only [ReadResult.catalog.injEq] at h
      refine ⟨k, hk2, ?_⟩
      rw [← h.2]
      apply List.ext_getElem?
      intro i
      by_cases hi : i < k
      · rw [records_get c k _ i hi, List.getElem?_map, List.getElem?_range hi, Option.map_some]
        congr 1
        unfold recordAt fileRecord
        rw [hb, List.drop_take, List.drop_drop, List.take_take]
        have : c.size ≤ k * c.size - i * c.size := by
          have : (i + 1) * c.size ≤ k * c.size := Nat.mul_le_mul_right _ (by omega)
          rw [Nat.succ_mul] at this
          omega
        rw [Nat.min_eq_left this]
        rfl
      · rw [List.getElem?_eq_none (by rw [records_length]; omega)]
        rw [List.getElem?_eq_none (by simp; omega)]

/-- The hypothesis of `C13_contents_partial` is met by an intact two-star file, and then two stars come back. -/
example : 32 + announced (headerBytes 1 2 ++ [5, 6]) * byteCodec.size ≤ (headerBytes 1 2 ++ [5, 6]).length ∧
    read byteCodec byteMag 255 100 (headerBytes 1 2 ++ [5, 6]) = .catalog 1 [5, 6] := by
  constructor
  · decide
  · rfl

/-! ### C16 -/

/-- **C16.** `clip_by_magnitude` keeps exactly the stars whose magnitude is a number not above the limit
(as a filter, hence in the original order and with multiplicity). -/
theorem C16_clip (mag : Star → Option K) (m : K) (l : List Star) :
    clip mag m l = l.filter (magLe mag m) ∧ (clip mag m l).Sublist l ∧
    ∀ s, s ∈ clip mag m l ↔ s ∈ l ∧ ∃ x, mag s = some x ∧ x ≤ m := by
  have e : clip mag m l = l.filter (magLe mag m) := by
    unfold clip
    congr 1
    funext s
    cases hs : mag s with
    | none => simp [magLe, hs]
    | some x => simp [magLe, hs, Bool.not_eq_eq_eq_not, ← not_le]
  refine ⟨e, by rw [e]; exact List.filter_sublist, ?_⟩
  intro s
  rw [e, List.mem_filter]
  constructor
  · rintro ⟨h1, h2⟩
    cases hs : mag s with
    | none => simp [magLe, hs] at h2
    | some x => exact ⟨h1, x, rfl, by simpa [magLe, hs] using h2⟩
  · rintro ⟨h1, x, hx, hle⟩
    exact ⟨h1, by simp [magLe, hx, hle]⟩

/-- **C16.** Idempotent, and clipping twice is clipping at the smaller limit. -/
theorem C16_compose (mag : Star → Option K) (m n : K) (l : List Star) :
    clip mag m (clip mag n l) = clip mag (min m n) l ∧ clip mag m (clip mag m l) = clip mag m l := by
  have h : ∀ m n : K, clip mag m (clip mag n l) = clip mag (min m n) l := by
    intro m n
    rw [(C16_clip mag m _).1, (C16_clip mag n _).1, (C16_clip mag _ _).1, List.filter_filter]
    congr 1
    funext s
    cases hs : mag s <;> simp [magLe, hs, le_min_iff]
  exact ⟨h m n, by rw [h, min_self]⟩

/-- **C16.** Monotone in the limit. -/
theorem C16_monotone (mag : Star → Option K) (m n : K) (h : m ≤ n) (l : List Star) :
    (clip mag m l).Sublist (clip mag n l) := by
  have := (C16_compose mag m n l).1
  rw [min_eq_left h] at this
  rw [← this]
  exact (C16_clip mag m _).2.1

example : clip byteMag 7 [7, 255, 3, 8] = [7, 3] := rfl

end Huira.Stars
