import Verif.ImageIO.FitsHeaderProps
/-!
# FITS headers: what is lost, what accumulates, what is overwritten

Continuation of C129.
-/
set_option linter.unusedSimpArgs false
namespace Huira.ImageIO.FitsHeader

theorem standard_lines : ∀ s ∈ standardComments, Line s := by
  intro s hs
  simp only [standardComments, List.mem_cons, List.not_mem_nil, or_false] at hs
  rcases hs with rfl | rfl <;> exact ⟨⟨by decide, by decide⟩, by decide, by decide⟩

/-- **C129**: comments never come back alone. -/
theorem C129_comments {f : Cfitsio} {p : Pixels} {m : Info} (hn : Named m.custom) (hl : ∀ s ∈ m.comments, Line s) :
    ∃ m', readHeader f (writeHeader p m) = .ok m' ∧ m'.comments = standardComments ++ m.comments := by
  refine ⟨_, C129_read f p m hn, ?_⟩
  simp only [returned, lines_cards hl]

/-- Writing what was read, `n` times, in one format without undefined pixels. -/
def generation (f : Cfitsio) (p : Pixels) (m : Info) : ℕ → Res Info
  | 0 => .ok m
  | n + 1 => generation f p m n >>= fun m' => readHeader f (writeHeader p m')

theorem named_returned {f : Cfitsio} {p : Pixels} {m : Info} (hn : Named m.custom) (hb : p.blank = none) :
    Named (returned f p m).custom := by
  have e : (returned f p m).custom = (m.custom.filter written).map (backKw f) := by
    simp [returned, blankKw, hb]
  rw [e]
  have ek : ((m.custom.filter written).map (backKw f)).map (·.key) = (m.custom.filter written).map (·.key) := by
    simp [List.map_map, Function.comp_def, backKw]
  constructor
  · rw [ek]
    exact List.Nodup.sublist (List.Sublist.map Keyword.key List.filter_sublist) hn.1
  · intro kw hkw
    obtain ⟨x, hx, rfl⟩ := List.mem_map.1 hkw
    exact hn.2 x (List.mem_of_mem_filter hx)

/-- **C129**: every generation of a file has two more comments than the one before. -/
theorem C129_grows {f : Cfitsio} {p : Pixels} {m : Info} (hn : Named m.custom) (hb : p.blank = none)
    (hl : ∀ s ∈ m.comments, Line s) (n : ℕ) :
    ∃ m', generation f p m n = .ok m' ∧ m'.comments.length = m.comments.length + 2 * n := by
  suffices h : ∃ m', generation f p m n = .ok m' ∧ Named m'.custom ∧ (∀ s ∈ m'.comments, Line s) ∧
      m'.comments.length = m.comments.length + 2 * n by
    obtain ⟨m', h1, _, _, h2⟩ := h
    exact ⟨m', h1, h2⟩
  induction n with
  | zero => exact ⟨m, rfl, hn, hl, rfl⟩
  | succ n ih =>
    obtain ⟨m', h1, h2, h3, h4⟩ := ih
    refine ⟨returned f p m', ?_, named_returned h2 hb, ?_, ?_⟩
    · rw [generation, h1, Res.ok_bind, C129_read f p m' h2]
    · intro s hs
      simp only [returned, lines_cards h3, List.mem_append] at hs
      exact hs.elim (standard_lines s) (h3 s)
    · simp only [returned, lines_cards h3, List.length_append, h4]
      simp only [standardComments, List.length_cons, List.length_nil]
      omega

/-! ### the property is violated -/

/-- A library without rounding errors of its own. -/
def exact : Cfitsio := ⟨id, id, fun _ => [], fun _ => none⟩

theorem exact_double : IsDouble exact.rd := fun q => by
  rw [show exact.rd q = q from rfl, sub_self, abs_zero]; positivity
theorem exact_float : IsFloat exact.rf := fun q => by
  rw [show exact.rf q = q from rfl, sub_self, abs_zero]; positivity

theorem documented_empty : Documented exact {} where
  named := ⟨by simp, by simp⟩
  strings := by
    intro s hs
    simp only [List.mem_cons, List.not_mem_nil, or_false] at hs
    rcases hs with rfl | rfl | rfl | rfl | rfl | rfl | rfl | rfl | rfl | rfl | rfl <;> exact ⟨⟨by decide, by decide⟩, by decide⟩
  radesys := by decide
  exptime := ⟨le_refl _, rfl⟩
  doubles := fun _ _ _ _ => rfl
  lines := by simp
  keywords := by simp

/-- **C129 is violated** already by an image without metadata: two comments nobody wrote are read. -/
theorem C129_violated : ¬ C129_full := by
  intro h
  have := h exact ⟨-32, 640, 480, 0, 0, 1, none⟩ {} exact_double exact_float documented_empty rfl rfl rfl rfl
  rw [C129_read _ _ _ ⟨by simp, by simp⟩] at this
  have := congrArg (fun r : Res Info => match r with | .ok m => m.comments.length | _ => 0) this
  simp [returned, filled, standardComments] at this

/-- A time: Julian date 2460000.5 and 3.3 seconds. -/
def julian : ℚ := 4920001 / 2 + 5 / 131072

theorem julian_printed : sci 10 julian = 4920001 / 2 := by
  have hl : Int.log 10 |julian| = 6 := by
    have e : |julian| = julian := abs_of_pos (by norm_num [julian])
    rw [e]
    refine le_antisymm ?_ ?_
    · have : Int.log 10 julian < 7 := by
        rw [← Int.lt_zpow_iff_log_lt (by norm_num) (by norm_num [julian])]
        norm_num [julian]
      omega
    · rw [← Int.zpow_le_iff_le_log (by norm_num) (by norm_num [julian])]
      norm_num [julian]
  refine sci_core ⟨24600005000, ?_⟩ ?_
  · rw [hl]; norm_num
  · rw [hl]; norm_num [julian, abs_lt]

/-- **C129 is violated** for numbers of more than eleven figures, whatever the rounding of the library: a custom keyword with a
Julian date loses seconds. -/
theorem C129_violated_double {f : Cfitsio} (hf : IsDouble f.rd) (p : Pixels) (hb : p.blank = none) :
    ∃ m' v, readHeader f (writeHeader p { custom := [⟨"JD", .dbl julian, "time".toList⟩] }) = .ok m' ∧
      m'.custom = [⟨"JD", .dbl v, "time".toList⟩] ∧ 1 / 30000 < julian - v := by
  refine ⟨_, f.rd (sci 10 julian), C129_read f p _ ⟨by simp, ?_⟩, ?_, ?_⟩
  · intro kw hkw
    simp only [List.mem_cons, List.not_mem_nil, or_false] at hkw
    subst hkw
    exact ⟨⟨by decide, by decide, by decide⟩, by decide⟩
  · have : storeComment (.dbl julian) "time".toList = "time".toList := by
      unfold storeComment room valueColumns; decide
    have e : [(⟨"JD", .dbl julian, "time".toList⟩ : Keyword)].filter written = [⟨"JD", .dbl julian, "time".toList⟩] := rfl
    simp only [returned, blankKw, hb, e, List.map_cons, List.map_nil, List.append_nil, backKw, backVal, this]
  · rw [julian_printed]
    have := hf (4920001 / 2)
    rw [abs_le, abs_of_pos (by norm_num)] at this
    have h2 := this.2
    unfold julian
    norm_num at h2 ⊢
    linarith

/-- **C129 is violated** for a part of a coordinate system: a declination, an equinox and a frame alone are not written. -/
theorem C129_violated_wcs (f : Cfitsio) (p : Pixels) (hb : p.blank = none) (v : ℚ) :
    ∃ m', readHeader f (writeHeader p { crval2 := some v, equinox := 1950, radesys := "FK4".toList }) = .ok m' ∧
      m'.crval2 = none ∧ m'.equinox = 2000 ∧ m'.radesys = "ICRS".toList := by
  exact ⟨_, C129_read f p _ ⟨by simp, by simp⟩, rfl, rfl, rfl⟩

/-- **C129**: with sensible names the keywords that describe the layout of the file are those of the image. -/
theorem C129_structural {p : Pixels} {m : Info} (hn : Named m.custom) :
    lookup (writeHeader p m) "SIMPLE" = some (.log true) ∧ lookup (writeHeader p m) "BITPIX" = some (.int p.bitpix) ∧
      lookup (writeHeader p m) "NAXIS" = some (.int 2) ∧ lookup (writeHeader p m) "NAXIS1" = some (.int p.width) ∧
      lookup (writeHeader p m) "NAXIS2" = some (.int p.height) := by
  rw [header_cards p m hn]
  refine ⟨?_, ?_, ?_, ?_, ?_⟩ <;>
  · rw [lookup_append]
    simp [lookup, initial]

/-- **C129 is violated** for other names: a custom keyword can replace the width of the image, and the file says it has that
many columns. -/
theorem C129_violated_structural (p : Pixels) (w : ℤ) :
    lookup (writeHeader p { custom := [⟨"NAXIS1", .int w, []⟩] }) "NAXIS1" = some (.int w) := by
  have key : ∀ (l : List Op) (h : List Card) (k : String) (v : Val), lookup h k = some v → k ∉ opKeys l →
      lookup (l.foldl Op.run h) k = some v := by
    intro l
    induction l with
    | nil => intro h k v hv _; exact hv
    | cons o l ih =>
      intro h k v hv hk
      have e : opKeys (o :: l) = opKeys [o] ++ opKeys l := by simp [opKeys, ← List.filterMap_append]
      rw [e, List.mem_append, not_or] at hk
      rw [List.foldl_cons]
      refine ih _ _ _ ?_ hk.2
      cases o with
      | text t s => rw [Op.run, lookup_append, hv]; rfl
      | key k' v' c =>
        have hne : k' ≠ k := fun e => hk.1 (by simp [opKeys, e])
        rw [Op.run]
        clear hk ih
        induction h with
        | nil => simp [lookup] at hv
        | cons x h ih' =>
          cases x with
          | text t s => simpa [update, lookup] using ih' (by simpa [lookup] using hv)
          | kv k2 v2 c2 =>
            rw [update]
            by_cases e2 : k2 = k'
            · subst e2
              rw [if_pos rfl]
              simpa [lookup, hne] using hv
            · rw [if_neg e2]
              by_cases e3 : k2 = k
              · simpa [lookup, e3] using hv
              · simpa [lookup, e3] using ih' (by simpa [lookup, e3] using hv)
  have upd : ∀ (h : List Card) (k : String) (v : In) (c : Option Str), lookup (update k v c h) k = some (enc v) := by
    intro h k v c
    induction h with
    | nil => simp [update, lookup]
    | cons x h ih =>
      cases x with
      | text t s => simpa [update, lookup] using ih
      | kv k2 v2 c2 =>
        rw [update]
        by_cases e2 : k2 = k
        · rw [if_pos e2]; simp [lookup]
        · rw [if_neg e2]; simpa [lookup, e2] using ih
  set m : Info := { custom := [⟨"NAXIS1", .int w, []⟩] } with hm
  have split : ∃ A B, headerOps p m = A ++ [.key "NAXIS1" (.int w) none] ++ B ∧ "NAXIS1" ∉ opKeys B := by
    have hc : (completed p m).custom = [⟨"NAXIS1", .int w, []⟩] := by rw [completed_custom]
    refine ⟨metadataOps { completed p m with custom := [] }, [.key "DATAMIN" (.dbl p.least) (some "Minimum pixel value".toList)] ++
      [.key "DATAMAX" (.dbl p.greatest) (some "Maximum pixel value".toList)] ++ blankOp p, ?_, ?_⟩
    · unfold headerOps metadataOps
      rw [hc]
      simp only [hm, Option.isNone_none, if_true, List.flatMap_nil, List.append_nil, List.flatMap_cons, customOp, List.isEmpty_nil,
        List.append_assoc]
      rfl
    · unfold blankOp
      cases p.blank <;> simp [opKeys]
  obtain ⟨A, B, e, hB⟩ := split
  unfold writeHeader
  rw [e, List.foldl_append, List.foldl_append]
  refine key B _ _ _ ?_ hB
  exact upd _ _ _ _

/-! ### instances of the hypotheses -/

/-- Metadata of an observation. -/
def observation : Info where
  object := "M31".toList
  telescop := "O'Neill 1m".toList
  dateObs := "2023-01-01T00:00:30".toList
  exptime := 1 / 2
  filter := "V".toList
  saturate := some 4095
  crpix1 := some 512
  crpix2 := some (767 / 2)
  crval1 := some (106846 / 10000)
  crval2 := some (-412690 / 10000)
  cdelt1 := some (-1 / 4000)
  cdelt2 := some (1 / 4000)
  ctype1 := "RA---TAN".toList
  ctype2 := "DEC--TAN".toList
  comments := ["A test.".toList]
  history := ["dark subtracted".toList]
  custom := [⟨"GAIN", .dbl (3 / 2), "[e-/adu]".toList⟩, ⟨"NFRAMES", .int 12, []⟩, ⟨"COOLED", .log true, []⟩,
    ⟨"SITE", .str "La Silla".toList, "observatory".toList⟩]

theorem figures_of (d : ℕ) (n e : ℤ) {q : ℚ} (hn : |n| < 10 ^ d) (hq : q = n * 10 ^ e) : Figures d q := ⟨n, e, hn, hq⟩

example : Named observation.custom := by
  refine ⟨by decide, ?_⟩
  intro kw hkw
  simp only [observation, List.mem_cons, List.not_mem_nil, or_false] at hkw
  rcases hkw with rfl | rfl | rfl | rfl <;> exact ⟨⟨by decide, by decide, by decide⟩, by decide⟩

example : Documented exact observation where
  named := by
    refine ⟨by decide, ?_⟩
    intro kw hkw
    simp only [observation, List.mem_cons, List.not_mem_nil, or_false] at hkw
    rcases hkw with rfl | rfl | rfl | rfl <;> exact ⟨⟨by decide, by decide, by decide⟩, by decide⟩
  strings := by
    intro s hs
    simp only [observation, List.mem_cons, List.not_mem_nil, or_false] at hs
    rcases hs with rfl | rfl | rfl | rfl | rfl | rfl | rfl | rfl | rfl | rfl | rfl <;> exact ⟨⟨by decide, by decide⟩, by decide⟩
  radesys := by decide
  exptime := ⟨by norm_num [observation], rfl⟩
  doubles := fun _ _ _ _ => rfl
  lines := by
    intro s hs
    simp only [observation, List.mem_append, List.mem_cons, List.not_mem_nil, or_false] at hs
    rcases hs with rfl | rfl <;> exact ⟨⟨by decide, by decide⟩, by decide, by decide⟩
  keywords := by
    intro kw hkw
    simp only [observation, List.mem_cons, List.not_mem_nil, or_false] at hkw
    rcases hkw with rfl | rfl | rfl | rfl
    · exact ⟨⟨by decide, by decide⟩, by decide, rfl⟩
    · exact ⟨⟨by decide, by decide⟩, by decide, by decide⟩
    · exact ⟨⟨by decide, by decide⟩, by decide, trivial⟩
    · exact ⟨⟨by decide, by decide⟩, by decide, ⟨⟨by decide, by decide⟩, by decide⟩, by decide⟩

example : ShortNumbers exact observation := by
  refine ⟨⟨1 / 2, figures_of 6 5 (-1) (by norm_num) (by norm_num), rfl, ?_⟩, ?_, ?_⟩
  · have e : |observation.exptime| = 1 / 2 := by norm_num [observation, abs_of_pos]
    have hl : Int.log 10 (1 / 2 : ℚ) = -1 := by
      refine le_antisymm ?_ ?_
      · have : Int.log 10 (1 / 2 : ℚ) < 0 := by
          rw [← Int.lt_zpow_iff_log_lt (by norm_num) (by norm_num)]; norm_num
        omega
      · rw [← Int.zpow_le_iff_le_log (by norm_num) (by norm_num)]; norm_num
    rw [e, hl]; norm_num
  · intro v hv q hq
    simp only [observation, List.mem_cons, List.not_mem_nil, or_false] at hv
    rcases hv with rfl | rfl | rfl | rfl | rfl | rfl | rfl | rfl | rfl | rfl <;> simp only [Option.some.injEq, reduceCtorEq] at hq <;> subst hq
    · exact ⟨_, figures_of 11 4095 0 (by norm_num) (by norm_num), rfl⟩
    · exact ⟨_, figures_of 11 512 0 (by norm_num) (by norm_num), rfl⟩
    · exact ⟨_, figures_of 11 3835 (-1) (by norm_num) (by norm_num), rfl⟩
    · exact ⟨_, figures_of 11 106846 (-4) (by norm_num) (by norm_num), rfl⟩
    · exact ⟨_, figures_of 11 (-412690) (-4) (by norm_num) (by norm_num), rfl⟩
    · exact ⟨_, figures_of 11 (-25) (-5) (by norm_num) (by norm_num), rfl⟩
    · exact ⟨_, figures_of 11 25 (-5) (by norm_num) (by norm_num), rfl⟩
    · exact ⟨_, figures_of 11 2000 0 (by norm_num) (by norm_num), rfl⟩
  · intro kw hkw v hv
    simp only [observation, List.mem_cons, List.not_mem_nil, or_false] at hkw
    rcases hkw with rfl | rfl | rfl | rfl <;> simp only [In.dbl.injEq, reduceCtorEq] at hv
    subst hv
    exact ⟨_, figures_of 11 15 (-1) (by norm_num) (by norm_num), rfl⟩

example : WcsWhole observation := .inl rfl

/-- A quote takes two columns, so that a name of 40 quotes is cut. -/
example : (storeStr (List.replicate 40 '\'')).length = 34 := by decide

/-- A comment of 100 characters becomes two cards. -/
example : textCards (List.replicate 100 'x') = [List.replicate 72 'x', List.replicate 28 'x'] := by
  have h : chunks (List.replicate 100 'x') = [List.replicate 72 'x', List.replicate 28 'x'] := by
    rw [chunks, dif_neg (by decide), chunks, dif_neg (by decide), chunks, dif_pos (by decide)]; rfl
  rw [textCards, h]; decide

end Huira.ImageIO.FitsHeader
