import Verif.Stars.Tycho
/-! # Tycho-2 properties C14, C15 -/
set_option linter.unusedSimpArgs false
namespace Huira.Tycho

/-! ### C14 -/

/-- The packed identifier is the mixed-radix number with digits `tyc1, tyc2, tyc3`. -/
theorem pack_eq (t1 t2 t3 : Nat) (h2 : t2 < 2 ^ 16) (h3 : t3 < 2 ^ 4) :
    pack t1 t2 t3 = t1 * 2 ^ 20 + t2 * 2 ^ 4 + t3 := by
  unfold pack
  rw [Nat.or_assoc, ← Nat.shiftLeft_add_eq_or_of_lt h3, Nat.shiftLeft_eq t2,
    ← Nat.shiftLeft_add_eq_or_of_lt (by omega), Nat.shiftLeft_eq, Nat.add_assoc]

/-- **C14.** Unpacking a packed triple returns it, for every triple within the 14/16/4-bit fields; the id fits
36 bits. -/
theorem C14_unpack_pack (t1 t2 t3 : Nat) (h1 : t1 < 2 ^ 14) (h2 : t2 < 2 ^ 16) (h3 : t3 < 2 ^ 4) :
    unpack (pack t1 t2 t3) = (t1, t2, t3) ∧ pack t1 t2 t3 < 2 ^ 36 := by
  rw [pack_eq t1 t2 t3 h2 h3]
  unfold unpack
  refine ⟨?_, by omega⟩
  rw [show (0x3FFF : Nat) = 2 ^ 14 - 1 from rfl, show (0xFFFF : Nat) = 2 ^ 16 - 1 from rfl,
    show (0xF : Nat) = 2 ^ 4 - 1 from rfl]
  simp only [Nat.and_two_pow_sub_one_eq_mod, Nat.shiftRight_eq_div_pow]
  refine Prod.ext ?_ (Prod.ext ?_ ?_) <;> simp only <;> omega

/-- **C14.** Distinct stars have distinct identifiers. -/
theorem C14_injective (t1 t2 t3 u1 u2 u3 : Nat) (h1 : t1 < 2 ^ 14) (h2 : t2 < 2 ^ 16) (h3 : t3 < 2 ^ 4)
    (g1 : u1 < 2 ^ 14) (g2 : u2 < 2 ^ 16) (g3 : u3 < 2 ^ 4) (h : pack t1 t2 t3 = pack u1 u2 u3) :
    t1 = u1 ∧ t2 = u2 ∧ t3 = u3 := by
  have a := (C14_unpack_pack t1 t2 t3 h1 h2 h3).1
  have b := (C14_unpack_pack u1 u2 u3 g1 g2 g3).1
  rw [h, b] at a
  simp only [Prod.mk.injEq] at a
  exact ⟨a.1.symm, a.2.1.symm, a.2.2.symm⟩

/-- The largest catalogue triple meets the hypotheses. -/
example : unpack (pack 9537 12121 3) = (9537, 12121, 3) := (C14_unpack_pack 9537 12121 3 (by omega) (by omega) (by omega)).1

/-- Sharpness: one bit beyond the documented width of the third field collides. -/
theorem C14_sharp : pack 0 0 16 = pack 0 1 0 := by decide

/-! ### C15 -/
variable {F P : Type}

/-- Specification: the star a row describes on its own, loaded into a default star; `none` for rows the format
tells us to drop (header lines, no position, no magnitude). -/
def rowStar (o : Ops F P) (r : Row F) : Option (Star F P) :=
  if r.isData then
    match rowBody o r (fresh o) with
    | .keep s => some s
    | _ => none
  else none

/-- All identifier columns of data rows are numbers. -/
def IdsPresent (rows : List (Row F)) : Prop :=
  ∀ r ∈ rows, r.isData = true → r.tyc1.isSome ∧ r.tyc2.isSome ∧ r.tyc3.isSome

/-- C15, memory safety: no file content leads to undefined behaviour. -/
def C15_safe_full (o : Ops F P) (parse : List Char → Row F) : Prop :=
  ∀ text, (∀ line, (parse line).isData = true → line ≠ []) → IdsPresent ((getLines [] text).map parse) →
    load o parse text ≠ .ub

/-- C15, row locality: the result is the list of the stars of the individual rows. -/
def C15_local_full (o : Ops F P) (parse : List Char → Row F) : Prop :=
  ∀ text, load o parse text ≠ .ub → load o parse text = .stars (((getLines [] text).map parse).filterMap (rowStar o))

theorem getLines_length : ∀ (cur text : List Char),
    (getLines cur text).length ≤ countNewlines text + 1
  | [], [] => by simp [getLines, countNewlines]
  | _ :: _, [] => by simp [getLines, countNewlines]
  | cur, c :: cs => by
    unfold getLines
    by_cases h : c = '\n'
    · have := getLines_length [] cs
      simp only [h, if_true, List.length_cons, countNewlines, List.count_cons_self] at *
      omega
    · have := getLines_length (c :: cur) cs
      simp only [if_neg h, countNewlines] at *
      rw [List.count_cons_of_ne (by simpa using h)]
      exact this

/-- A text whose last line is terminated has as many lines as newlines. -/
theorem getLines_terminated : ∀ (cur text : List Char), (getLines cur (text ++ ['\n'])).length =
    countNewlines (text ++ ['\n'])
  | cur, [] => by
    simp [getLines, countNewlines]
  | cur, c :: cs => by
    by_cases h : c = '\n'
    · have := getLines_terminated [] cs
      simp only [h, if_true, List.length_cons, countNewlines, List.count_cons_self, List.cons_append, getLines] at *
      omega
    · have := getLines_terminated (c :: cur) cs
      simp only [if_neg h, countNewlines, List.cons_append, getLines] at *
      rw [List.count_cons_of_ne (by simpa using h)]
      exact this

theorem rowBody_ub (o : Ops F P) (r : Row F) (s : Star F P)
    (h : r.tyc1.isSome ∧ r.tyc2.isSome ∧ r.tyc3.isSome) : rowBody o r s ≠ .ub := by
  obtain ⟨h1, h2, h3⟩ := h
  obtain ⟨a, ha⟩ := Option.isSome_iff_exists.1 h1
  obtain ⟨b, hb⟩ := Option.isSome_iff_exists.1 h2
  obtain ⟨d, hd⟩ := Option.isSome_iff_exists.1 h3
  unfold rowBody
  simp only [ha, hb, hd]
  repeat' split
  all_goals simp

theorem loop_safe (o : Ops F P) : ∀ (rows : List (Row F)) (slots : List (Star F P)) (i : Nat),
    i + (rows.filter (·.isData)).length ≤ slots.length → IdsPresent rows → loop o rows slots i ≠ .ub
  | [], _, _, _, _ => by simp [loop]
  | r :: rs, slots, i, h, hid => by
    unfold loop
    have hid' : IdsPresent rs := fun x hx => hid x (List.mem_cons_of_mem _ hx)
    by_cases hd : r.isData = true
    · simp only [hd, if_true]
      rw [List.filter_cons, if_pos hd, List.length_cons] at h
      have hi : i < slots.length := by omega
      rw [List.getElem?_eq_getElem hi]
      have hnu := rowBody_ub o r slots[i] (hid r (List.mem_cons_self ..) hd)
      simp only
      split
      · contradiction
      · exact loop_safe o rs _ _ (by rw [List.length_set]; omega) hid'
      · exact loop_safe o rs _ _ (by rw [List.length_set]; omega) hid'
    · simp only [hd, if_false]
      rw [List.filter_cons, if_neg hd] at h
      exact loop_safe o rs slots i h hid'

/-- **C15 (violated, memory safety).** A single data line without a final newline is written past the end of an
empty array, for every parser that accepts some line without newline characters as data. -/
theorem C15_safe_violated (o : Ops F P) (r : Row F) (hr : r.isData = true)
    (hid : r.tyc1.isSome ∧ r.tyc2.isSome ∧ r.tyc3.isSome) :
    ∃ parse : List Char → Row F, ¬ C15_safe_full o parse := by
  refine ⟨fun l => { r with isData := !l.isEmpty }, ?_⟩
  intro h
  have h1 := h ['1'] (by
    intro line hl
    simp at hl
    exact hl) (by
    intro x hx _
    simp [getLines] at hx
    subst hx
    exact hid)
  apply h1
  simp [load, getLines, countNewlines, loop]

/-- **C15 (partial, memory safety).** If fewer data rows than newlines occur - in particular for every text that
ends with a newline - no out-of-bounds write happens and no undefined conversion either, provided data rows
have numeric identifiers. -/
theorem C15_safe_partial (o : Ops F P) (parse : List Char → Row F) (text : List Char)
    (h : (((getLines [] text).map parse).filter (·.isData)).length ≤ countNewlines text)
    (hid : IdsPresent ((getLines [] text).map parse)) : load o parse text ≠ .ub := by
  unfold load
  apply loop_safe
  · simpa using h
  · exact hid

theorem C15_safe_terminated_partial (o : Ops F P) (parse : List Char → Row F) (text : List Char)
    (hid : IdsPresent ((getLines [] (text ++ ['\n'])).map parse)) : load o parse (text ++ ['\n']) ≠ .ub := by
  apply C15_safe_partial _ _ _ _ hid
  have h1 := List.length_filter_le (·.isData) ((getLines [] (text ++ ['\n'])).map parse)
  rw [List.length_map, getLines_terminated] at h1
  exact h1

/-- **C15 (violated, undefined conversion).** A data row with an empty identifier column converts NaN to `int`. -/
theorem C15_blank_id_violated (o : Ops F P) (r : Row F) (hr : r.isData = true) (hid : r.tyc2 = none) :
    load o (fun l => { r with isData := !l.isEmpty }) ['1', '\n'] = .ub := by
  unfold load
  simp only [getLines, countNewlines, List.map_cons, List.map_nil, if_true, List.reverse_cons, List.reverse_nil,
    List.nil_append, List.count_cons, List.count_nil]
  simp only [show ('1' : Char) ≠ '\n' by decide, if_false, List.map_cons, List.map_nil]
  unfold loop
  simp only [List.reverse_cons, List.reverse_nil, List.nil_append, List.isEmpty_cons, Bool.not_false, if_true]
  simp [rowBody, hid]

/-! Row locality. -/

/-- The row is dropped only after its proper motion was stored in the slot. -/
def DropsLate (r : Row F) : Prop := r.isData = true ∧ r.bt = none ∧ r.vt = none ∧ (r.pmRA.isSome ∨ r.pmDEC.isSome)

theorem rowBody_skip_pm (o : Ops F P) (r : Row F) (s s' : Star F P) (h : rowBody o r s = .skip s')
    (hd : r.bt.isSome ∨ r.vt.isSome ∨ (r.pmRA = none ∧ r.pmDEC = none)) :
    s'.pmRA = s.pmRA ∧ s'.pmDEC = s.pmDEC := by
  unfold rowBody at h
  cases h1 : r.tyc1 <;> cases h2 : r.tyc2 <;> cases h3 : r.tyc3 <;> simp only [h1, h2, h3] at h <;>
    try (exact absurd h (by simp))
  cases h4 : r.hasMean <;> cases h5 : r.meanRA <;> cases h6 : r.meanDEC <;>
    cases h7 : r.obsRA <;> cases h8 : r.obsDEC <;> cases h9 : r.epRA <;> cases h10 : r.epDE <;>
    simp only [h4, h5, h6, h7, h8, h9, h10, if_true, if_false, Bool.false_eq_true, RowOut.skip.injEq] at h <;>
    first
    | (subst h; exact ⟨rfl, rfl⟩)
    | (cases hb : r.bt <;> cases hv : r.vt <;> simp [hb, hv] at h hd
       subst h; simp [hd.1, hd.2])

theorem rowBody_congr (o : Ops F P) (r : Row F) (s t : Star F P)
    (h : (r.pmRA.isSome ∨ s.pmRA = t.pmRA) ∧ (r.pmDEC.isSome ∨ s.pmDEC = t.pmDEC)) :
    match rowBody o r s, rowBody o r t with
    | .ub, .ub => True
    | .skip _, .skip _ => True
    | .keep a, .keep b => a = b
    | _, _ => False := by
  obtain ⟨hA, hB⟩ := h
  have ha : r.pmRA.getD s.pmRA = r.pmRA.getD t.pmRA := by
    rcases hA with hA | hA
    · obtain ⟨x, hx⟩ := Option.isSome_iff_exists.1 hA; simp [hx]
    · rw [hA]
  have hb : r.pmDEC.getD s.pmDEC = r.pmDEC.getD t.pmDEC := by
    rcases hB with hB | hB
    · obtain ⟨x, hx⟩ := Option.isSome_iff_exists.1 hB; simp [hx]
    · rw [hB]
  unfold rowBody
  cases r.tyc1 <;> cases r.tyc2 <;> cases r.tyc3 <;> cases r.hasMean <;> cases r.meanRA <;> cases r.meanDEC <;>
    cases r.obsRA <;> cases r.obsDEC <;> cases r.epRA <;> cases r.epDE <;>
    simp only [if_true, if_false, Bool.false_eq_true, ha, hb] <;>
    cases r.bt <;> cases r.vt <;> simp

theorem loop_local (o : Ops F P) : ∀ (rows : List (Row F)) (slots : List (Star F P)) (i : Nat),
    (∀ j (hj : j < slots.length), i ≤ j → slots[j].pmRA = (fresh o).pmRA ∧ slots[j].pmDEC = (fresh o).pmDEC) →
    (∀ r ∈ rows, ¬ DropsLate r) → loop o rows slots i ≠ .ub →
    loop o rows slots i = .stars (slots.take i ++ rows.filterMap (rowStar o))
  | [], slots, i, _, _, _ => by simp [loop]
  | r :: rs, slots, i, hinv, hr, hub => by
    have hr' : ∀ x ∈ rs, ¬ DropsLate x := fun x hx => hr x (List.mem_cons_of_mem _ hx)
    have hnd := hr r (List.mem_cons_self ..)
    unfold loop at hub ⊢
    by_cases hd : r.isData = true
    · simp only [hd, if_true] at hub ⊢
      by_cases hi : i < slots.length
      · rw [List.getElem?_eq_getElem hi] at hub ⊢
        simp only at hub ⊢
        have hs := hinv i hi (Nat.le_refl _)
        have hcong := rowBody_congr o r slots[i] (fresh o) ⟨Or.inr hs.1, Or.inr hs.2⟩
        have hd' : r.bt.isSome ∨ r.vt.isSome ∨ (r.pmRA = none ∧ r.pmDEC = none) := by
          unfold DropsLate at hnd
          cases h1 : r.bt <;> cases h2 : r.vt <;> simp [h1, h2, hd] at hnd ⊢
          exact hnd
        cases hb : rowBody o r slots[i] with
        | ub => rw [hb] at hub; simp at hub
        | skip s' =>
          rw [hb] at hub hcong
          simp only at hub ⊢
          have hnone : rowStar o r = none := by
            unfold rowStar
            cases hf : rowBody o r (fresh o) <;> simp [hf, hd] at hcong ⊢
          rw [List.filterMap_cons, hnone]
          have hpm := rowBody_skip_pm o r _ _ hb hd'
          have := loop_local o rs (slots.set i s') i (by
            intro j hj hij
            rw [List.getElem_set]
            split
            · exact ⟨hpm.1.trans hs.1, hpm.2.trans hs.2⟩
            · exact hinv j (by simpa using hj) hij) hr' hub
          rw [this]
          simp only [List.take_set]
          rw [List.set_eq_of_length_le (by simp; omega)]
        | keep s' =>
          rw [hb] at hub hcong
          simp only at hub ⊢
          have hsome : rowStar o r = some s' := by
            unfold rowStar
            cases hf : rowBody o r (fresh o) <;> simp [hf, hd] at hcong ⊢
            exact hcong.symm
          rw [List.filterMap_cons, hsome]
          have := loop_local o rs (slots.set i s') (i + 1) (by
            intro j hj hij
            rw [List.getElem_set, if_neg (by omega)]
            exact hinv j (by simpa using hj) (by omega)) hr' hub
          rw [this]
          rw [List.take_succ_eq_append_getElem (by simpa using hi)]
          simp [List.take_set]
          rw [List.set_eq_of_length_le (by simp; omega)]
      · rw [List.getElem?_eq_none (by omega)] at hub
        simp at hub
    · simp only [hd, if_false] at hub ⊢
      have hnone : rowStar o r = none := by simp [rowStar, hd]
      rw [List.filterMap_cons, hnone]
      exact loop_local o rs slots i hinv hr' hub

/-- **C15 (partial, row locality).** If no row is dropped for missing magnitudes while carrying a proper motion,
the loaded list is exactly the list of the rows' own stars, in file order. -/
theorem C15_local_partial (o : Ops F P) (parse : List Char → Row F) (text : List Char)
    (hr : ∀ r ∈ (getLines [] text).map parse, ¬ DropsLate r) (h : load o parse text ≠ .ub) :
    load o parse text = .stars (((getLines [] text).map parse).filterMap (rowStar o)) := by
  unfold load at h ⊢
  rw [loop_local o _ _ 0 (by intro j hj _; rw [List.getElem_replicate]; exact ⟨rfl, rfl⟩) hr h]
  simp

/-- The same holds if instead every row carries both proper motions. -/
theorem C15_local_complete_partial (o : Ops F P) : ∀ (rows : List (Row F)) (slots : List (Star F P)) (i : Nat),
    (∀ r ∈ rows, r.pmRA.isSome ∧ r.pmDEC.isSome) → loop o rows slots i ≠ .ub →
    loop o rows slots i = .stars (slots.take i ++ rows.filterMap (rowStar o))
  | [], slots, i, _, _ => by simp [loop]
  | r :: rs, slots, i, hr, hub => by
    have hr' : ∀ x ∈ rs, x.pmRA.isSome ∧ x.pmDEC.isSome := fun x hx => hr x (List.mem_cons_of_mem _ hx)
    have hpm := hr r (List.mem_cons_self ..)
    unfold loop at hub ⊢
    by_cases hd : r.isData = true
    · simp only [hd, if_true] at hub ⊢
      by_cases hi : i < slots.length
      · rw [List.getElem?_eq_getElem hi] at hub ⊢
        simp only at hub ⊢
        have hcong := rowBody_congr o r slots[i] (fresh o) ⟨Or.inl hpm.1, Or.inl hpm.2⟩
        cases hb : rowBody o r slots[i] with
        | ub => rw [hb] at hub; simp at hub
        | skip s' =>
          rw [hb] at hub hcong
          simp only at hub ⊢
          have hnone : rowStar o r = none := by
            unfold rowStar
            cases hf : rowBody o r (fresh o) <;> simp [hf, hd] at hcong ⊢
          rw [List.filterMap_cons, hnone]
          rw [C15_local_complete_partial o rs (slots.set i s') i hr' hub]
          simp only [List.take_set]
          rw [List.set_eq_of_length_le (by simp; omega)]
        | keep s' =>
          rw [hb] at hub hcong
          simp only at hub ⊢
          have hsome : rowStar o r = some s' := by
            unfold rowStar
            cases hf : rowBody o r (fresh o) <;> simp [hf, hd] at hcong ⊢
            exact hcong.symm
          rw [List.filterMap_cons, hsome]
          rw [C15_local_complete_partial o rs (slots.set i s') (i + 1) hr' hub]
          rw [List.take_succ_eq_append_getElem (by simpa using hi)]
          simp [List.take_set]
          rw [List.set_eq_of_length_le (by simp; omega)]
      · rw [List.getElem?_eq_none (by omega)] at hub
        simp at hub
    · simp only [hd, if_false] at hub ⊢
      have hnone : rowStar o r = none := by simp [rowStar, hd]
      rw [List.filterMap_cons, hnone]
      exact C15_local_complete_partial o rs slots i hr' hub

/-- Integer arithmetic for the examples. -/
def intOps : Ops Int Int :=
  ⟨0, id, 2000, (1990 + ·), fun eA eD pA pD a d => (a + pA * (2000 - eA), d + pD * (2000 - eD)),
   fun b v => (v.orElse fun _ => b).getD 0, -1, 999⟩

/-- A row with a position and proper motion 5 but no magnitude, and one with a magnitude but no proper motion. -/
def rowDropped : Row Int :=
  { isData := true, tyc1 := some 1, tyc2 := some 1, tyc3 := some 1, hasMean := true, meanRA := some 10,
    meanDEC := some 20, obsRA := none, obsDEC := none, epRA := none, epDE := none, pmRA := some 5, pmDEC := some 6,
    bt := none, vt := none }
def rowKept : Row Int := { rowDropped with tyc2 := some 2, pmRA := none, pmDEC := none, vt := some 8 }

def demoParse : List Char → Row Int
  | ['1'] => rowDropped
  | ['2'] => rowKept
  | _ => { rowKept with isData := false }

/-- **C15 (violated, row locality).** The kept star carries the proper motion (5, 6) of the dropped line above it,
although its own line has none. -/
theorem C15_local_violated : ¬ C15_local_full intOps demoParse := by
  intro h
  have h1 := h ['1', '\n', '2', '\n'] (by decide)
  exact absurd h1 (by decide)

/-- Without the dropped line the proper motion is zero; with it it is (5, 6). -/
example : load intOps demoParse ['2', '\n'] = .stars [⟨pack 1 2 1, 10, 20, 0, 0, 8⟩] ∧
    load intOps demoParse ['1', '\n', '2', '\n'] = .stars [⟨pack 1 2 1, 10, 20, 5, 6, 8⟩] := ⟨rfl, rfl⟩

/-- The hypotheses of the partial theorems are met by a two-star file. -/
example : load intOps demoParse ['2', '\n', '2', '\n'] ≠ .ub ∧
    (∀ r ∈ (getLines [] ['2', '\n', '2', '\n']).map demoParse, ¬ DropsLate r) ∧
    IdsPresent ((getLines [] ['2', '\n', '2', '\n']).map demoParse) := by
  refine ⟨by simp [load, show getLines [] ['2', '\n', '2', '\n'] = [['2'], ['2']] from rfl,
    show countNewlines ['2', '\n', '2', '\n'] = 2 from rfl, demoParse, loop, rowBody, rowKept, rowDropped,
    List.replicate], ?_, ?_⟩
  · intro r hr
    simp [show getLines [] ['2', '\n', '2', '\n'] = [['2'], ['2']] from rfl, demoParse] at hr
    subst hr
    simp [DropsLate, rowKept, rowDropped]
  · intro r hr _
    simp [show getLines [] ['2', '\n', '2', '\n'] = [['2'], ['2']] from rfl, demoParse] at hr
    subst hr
    simp [rowKept, rowDropped]

end Huira.Tycho
