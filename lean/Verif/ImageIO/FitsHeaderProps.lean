import Verif.ImageIO.FitsHeader
import Mathlib.Algebra.Order.Field.Power
import Mathlib.Tactic.Linarith
import Mathlib.Tactic.NormNum
import Mathlib.Tactic.Positivity
import Mathlib.Tactic.FieldSimp
import Mathlib.Tactic.Ring
/-!
# FITS headers (properties)

C129: metadata written with an image come back when the image is read.
-/
set_option linter.unusedSimpArgs false
namespace Huira.ImageIO.FitsHeader

/-! ### decimal digits -/

/-- A decimal number of at most `d` significant figures. -/
def Figures (d : ℕ) (q : ℚ) : Prop := ∃ n e : ℤ, |n| < 10 ^ d ∧ q = n * 10 ^ e

theorem log_bounds {v : ℚ} (hv : v ≠ 0) : (10 : ℚ) ^ Int.log 10 |v| ≤ |v| ∧ |v| < 10 ^ (Int.log 10 |v| + 1) := by
  have h0 : 0 < |v| := abs_pos.2 hv
  constructor
  · exact_mod_cast Int.zpow_log_le_self (by norm_num) h0
  · exact_mod_cast Int.lt_zpow_succ_log_self (b := 10) (by norm_num) |v|

/-- The printed number is within half a unit of its last figure. -/
theorem sci_error (d : ℕ) (v : ℚ) : |sci d v - v| ≤ 1 / 2 * 10 ^ (Int.log 10 |v| - d) := by
  unfold sci
  set M : ℤ := (d : ℤ) - Int.log 10 |v| with hM
  have hp : (0 : ℚ) < 10 ^ M := by positivity
  have e1 : (10 : ℚ) ^ (Int.log 10 |v| - d) = 1 / 10 ^ M := by
    rw [show Int.log 10 |v| - d = -M by rw [hM]; ring, zpow_neg, one_div]
  have h := abs_sub_round (v * 10 ^ M)
  rw [e1, show ((round (v * 10 ^ M) : ℤ) : ℚ) / 10 ^ M - v = -((v * 10 ^ M - round (v * 10 ^ M)) / 10 ^ M) by field_simp; ring,
    abs_neg, abs_div, abs_of_pos hp]
  rw [show (1 / 2 * (1 / 10 ^ M) : ℚ) = (1 / 2) / 10 ^ M by ring]
  gcongr

theorem sci_rel (d : ℕ) (v : ℚ) : |sci d v - v| ≤ |v| / (2 * 10 ^ d) := by
  rcases eq_or_ne v 0 with rfl | hv
  · simp [sci]
  refine (sci_error d v).trans ?_
  have h := (log_bounds hv).1
  rw [zpow_sub₀ (by norm_num), zpow_natCast]
  rw [show (1 / 2 * ((10 : ℚ) ^ Int.log 10 |v| / 10 ^ d)) = 10 ^ Int.log 10 |v| / (2 * 10 ^ d) by field_simp]
  gcongr

/-- A number that is close enough to a multiple of the last figure is printed as that multiple. -/
theorem sci_core {d : ℕ} {v q : ℚ} (hq : ∃ n : ℤ, q * 10 ^ ((d : ℤ) - Int.log 10 |v|) = n)
    (hc : |v - q| < 1 / 2 * 10 ^ (Int.log 10 |v| - d)) : sci d v = q := by
  unfold sci
  set M : ℤ := (d : ℤ) - Int.log 10 |v| with hM
  have hp : (0 : ℚ) < 10 ^ M := by positivity
  obtain ⟨n, hn⟩ := hq
  have e1 : (10 : ℚ) ^ (Int.log 10 |v| - d) = 1 / 10 ^ M := by
    rw [show Int.log 10 |v| - d = -M by rw [hM]; ring, zpow_neg, one_div]
  have hr : round (v * 10 ^ M) = n := by
    rw [round_eq, Int.floor_eq_iff]
    rw [e1, abs_lt] at hc
    have e2 : (1 / 2 * (1 / 10 ^ M) : ℚ) * 10 ^ M = 1 / 2 := by field_simp
    have h1 := mul_lt_mul_of_pos_right hc.1 hp
    have h2 := mul_lt_mul_of_pos_right hc.2 hp
    rw [neg_mul, e2] at h1
    rw [e2] at h2
    rw [← hn]
    constructor <;> nlinarith
  rw [hr, ← hn]
  field_simp

theorem figures_int {k d : ℕ} {v q : ℚ} (hv : v ≠ 0) (hq : Figures k q) (hk : k ≤ d + 1)
    (hc : |v - q| < 10 ^ (Int.log 10 |v| - (d + 1)) ∨ k ≤ d ∧ |v - q| < 1 / 2 * 10 ^ (Int.log 10 |v| - d)) :
    ∃ n : ℤ, q * 10 ^ ((d : ℤ) - Int.log 10 |v|) = n := by
  obtain ⟨n, e, hn, rfl⟩ := hq
  set L := Int.log 10 |v| with hL
  rcases le_or_gt (L - d) e with he | he
  · refine ⟨n * 10 ^ (e + ((d : ℤ) - L)).toNat, ?_⟩
    have : (0 : ℤ) ≤ e + (d - L) := by omega
    rw [mul_assoc, ← zpow_add₀ (by norm_num)]
    push_cast
    rw [← zpow_natCast (10 : ℚ), Int.toNat_of_nonneg this]
  · exfalso
    have hb := (log_bounds hv).1
    rw [← hL] at hb
    have h1 : |v| - |v - n * 10 ^ e| ≤ |(n : ℚ) * 10 ^ e| := by
      have := abs_sub_abs_le_abs_sub v ((n : ℚ) * 10 ^ e)
      linarith
    rw [abs_mul, abs_of_pos (show (0 : ℚ) < 10 ^ e by positivity)] at h1
    have hn' : |(n : ℚ)| ≤ 10 ^ k - 1 := by
      have : |n| ≤ 10 ^ k - 1 := by omega
      exact_mod_cast this
    have he' : (10 : ℚ) ^ e ≤ 10 ^ (L - (d + 1)) := by gcongr <;> [norm_num; omega]
    have h2 : |(n : ℚ)| * 10 ^ e ≤ (10 ^ k - 1) * 10 ^ (L - (d + 1)) := by
      have : (0 : ℚ) ≤ 10 ^ k - 1 := le_trans (abs_nonneg _) hn'
      gcongr
    have hpL : (0 : ℚ) < 10 ^ (L - (d + 1)) := by positivity
    have e3 : (10 : ℚ) ^ L = 10 ^ (d + 1) * 10 ^ (L - (d + 1)) := by
      rw [← zpow_natCast (10 : ℚ) (d + 1), ← zpow_add₀ (by norm_num)]; congr 1; push_cast; ring
    have e4 : (10 : ℚ) ^ (L - d) = 10 * 10 ^ (L - (d + 1)) := by
      rw [show L - d = 1 + (L - (d + 1)) by ring, zpow_add₀ (by norm_num), zpow_one]
    rcases hc with hc | ⟨hkd, hc⟩
    · have h3 : (10 : ℚ) ^ k ≤ 10 ^ (d + 1) := by gcongr <;> norm_num
      nlinarith
    · have h3 : (10 : ℚ) ^ k ≤ 10 ^ d := by gcongr <;> norm_num
      have h4 : (1 : ℚ) ≤ 10 ^ d := one_le_pow₀ (by norm_num)
      have h5 : (10 : ℚ) ^ (d + 1) = 10 * 10 ^ d := by ring
      rw [e4] at hc
      rw [h5] at e3
      nlinarith

/-- What is assumed of rounding to `double`. -/
def IsDouble (rd : ℚ → ℚ) : Prop := ∀ q, |rd q - q| ≤ |q| / 2 ^ 53

/-- What is assumed of rounding to `float`. -/
def IsFloat (rf : ℚ → ℚ) : Prop := ∀ q, |rf q - q| ≤ |q| / 2 ^ 24

theorem rd_eq_zero {rd : ℚ → ℚ} (h : IsDouble rd) {q : ℚ} (hq : rd q = 0) : q = 0 := by
  have := h q
  rw [hq, zero_sub, abs_neg] at this
  have h0 := abs_nonneg q
  rw [← abs_eq_zero]
  linarith

/-- **C129**: a number of at most eleven figures is printed as written in the program. -/
theorem sci_double {rd : ℚ → ℚ} (h : IsDouble rd) {q : ℚ} (hq : Figures 11 q) : sci 10 (rd q) = q := by
  rcases eq_or_ne (rd q) 0 with h0 | hv
  · rw [h0, rd_eq_zero h h0]; simp [sci]
  set v := rd q
  have hb := (log_bounds hv)
  have hc : |v - q| < 10 ^ (Int.log 10 |v| - ((10 : ℕ) + 1)) := by
    have h1 : |v - q| ≤ |q| / 2 ^ 53 := h q
    have h2 : |q| ≤ |v| + |v - q| := by
      have := abs_sub_abs_le_abs_sub q v
      rw [abs_sub_comm] at this; linarith
    have h3 := hb.2
    have e1 : (10 : ℚ) ^ (Int.log 10 |v| - ((10 : ℕ) + 1)) = 10 ^ (Int.log 10 |v| + 1) / 10 ^ 12 := by
      rw [← zpow_natCast (10 : ℚ) 12, ← zpow_sub₀ (by norm_num)]; congr 1; push_cast; ring
    rw [e1]
    have hp : (0 : ℚ) < 10 ^ (Int.log 10 |v| + 1) := by positivity
    rw [lt_div_iff₀ (by norm_num)]
    rw [le_div_iff₀ (by norm_num)] at h1
    norm_num at h1 ⊢
    linarith [abs_nonneg q, abs_nonneg (v - q)]
  refine sci_core (figures_int hv hq le_rfl (.inl hc)) (hc.trans ?_)
  rw [show Int.log 10 |v| - ((10 : ℕ) : ℤ) = 1 + (Int.log 10 |v| - ((10 : ℕ) + 1)) by push_cast; ring, zpow_add₀ (by norm_num), zpow_one]
  have hp : (0 : ℚ) < 10 ^ (Int.log 10 |v| - ((10 : ℕ) + 1)) := by positivity
  generalize (10 : ℚ) ^ (Int.log 10 |v| - ((10 : ℕ) + 1)) = t at hp ⊢
  linarith

/-! ### the cards written -/

/-- The cards of a call whose key is new. -/
def Op.cards : Op → List Card
  | .key k v c => [.kv k (enc v) (storeComment v (c.getD []))]
  | .text k s => (chunks s).map fun t => .text k (stripR (t.map printable))

/-- The keys of calls. -/
def opKeys (l : List Op) : List String := l.filterMap fun o => match o with | .key k _ _ => some k | .text _ _ => none

theorem lookup_append (a b : List Card) (k : String) : lookup (a ++ b) k = (lookup a k).or (lookup b k) := by
  unfold lookup
  rw [List.findSome?_append]

theorem update_new (k : String) (v : In) (c : Option Str) (h : List Card) (hn : lookup h k = none) :
    update k v c h = h ++ [.kv k (enc v) (storeComment v (c.getD []))] := by
  induction h with
  | nil => rfl
  | cons x h ih =>
    cases x with
    | text t s => rw [update, ih (by simpa [lookup] using hn)]; rfl
    | kv k' v' c' =>
      by_cases e : k' = k
      · simp [lookup, e] at hn
      · rw [update, if_neg e, ih (by simpa [lookup, e] using hn)]; rfl

theorem lookup_cards {o : Op} {k : String} (h : k ∉ opKeys [o]) : lookup o.cards k = none := by
  cases o with
  | key k' v c =>
    have : k' ≠ k := fun e => h (by simp [opKeys, e])
    simp [Op.cards, lookup, this]
  | text t s =>
    simp [Op.cards, lookup]

theorem lookup_flat {l : List Op} {k : String} (h : k ∉ opKeys l) : lookup (l.flatMap Op.cards) k = none := by
  induction l with
  | nil => rfl
  | cons o l ih =>
    have h' : k ∉ opKeys [o] ++ opKeys l := by simpa [opKeys, ← List.filterMap_append] using h
    rw [List.mem_append, not_or] at h'
    rw [List.flatMap_cons, lookup_append, lookup_cards h'.1, ih h'.2]; rfl

/-- Calls with new and different keys append their cards. -/
theorem run_new (l : List Op) (h : List Card) (hd : (opKeys l).Nodup) (hn : ∀ k ∈ opKeys l, lookup h k = none) :
    l.foldl Op.run h = h ++ l.flatMap Op.cards := by
  induction l generalizing h with
  | nil => simp
  | cons o l ih =>
    have e : opKeys (o :: l) = opKeys [o] ++ opKeys l := by simp [opKeys, ← List.filterMap_append]
    rw [e] at hd hn
    have h1 : Op.run h o = h ++ o.cards := by
      cases o with
      | key k v c => exact update_new k v c h (hn k (by simp [opKeys]))
      | text t s => rfl
    rw [List.foldl_cons, h1, ih _ (List.Nodup.of_append_right hd), List.flatMap_cons, List.append_assoc]
    intro k hk
    rw [lookup_append, hn k (by simp [hk]), lookup_cards]
    · rfl
    · intro hk'
      exact (List.disjoint_of_nodup_append hd) hk' hk

/-- Names that mean something to the reader, the writer or the format itself. -/
def reserved : List String := known ++ ["BLANK", "COMMENT", "HISTORY", ""]

/-- The names FITS allows: one to eight upper case letters, digits, hyphens and underscores. -/
def legalName (k : String) : Prop :=
  0 < k.toList.length ∧ k.toList.length ≤ 8 ∧ ∀ c ∈ k.toList, c.isUpper ∨ c.isDigit ∨ c = '-' ∨ c = '_'

/-- Custom keywords have legal names, all different, that are not used for something else. -/
def Named (l : List Keyword) : Prop := (l.map (·.key)).Nodup ∧ ∀ kw ∈ l, legalName kw.key ∧ kw.key ∉ reserved

theorem opKeys_append (a b : List Op) : opKeys (a ++ b) = opKeys a ++ opKeys b := by simp [opKeys]
theorem opKeys_strOp (k : String) (s : Str) (c : Option Str) : (opKeys (strOp k s c)).Sublist [k] := by
  unfold strOp; split <;> simp [opKeys]
theorem opKeys_optOp (k : String) (v : Option ℚ) (c : String) : opKeys (optOp k v c) = if v.isSome then [k] else [] := by
  cases v <;> simp [optOp, opKeys]
theorem opKeys_text (k : String) (l : List Str) : opKeys (l.map (.text k)) = [] := by
  simp [opKeys]
theorem opKeys_customOp (kw : Keyword) : (opKeys (customOp kw)).Sublist [kw.key] := by
  unfold customOp
  cases kw.value <;> first | exact opKeys_strOp _ _ _ | simp [opKeys]
theorem opKeys_custom (l : List Keyword) : (opKeys (l.flatMap customOp)).Sublist (l.map (·.key)) := by
  induction l with
  | nil => simp [opKeys]
  | cons kw l ih =>
    rw [List.flatMap_cons, opKeys_append, List.map_cons, ← List.singleton_append]
    exact (opKeys_customOp kw).append ih

theorem opKeys_metadata (m : Info) :
    (opKeys (metadataOps m)).Sublist
      ((["OBJECT", "TELESCOP", "INSTRUME", "OBSERVER", "DATE-OBS", "ORIGIN", "EXPTIME", "FILTER", "BUNIT"] ++
        ((if m.datamin.isSome then ["DATAMIN"] else []) ++ ((if m.datamax.isSome then ["DATAMAX"] else []) ++
        ["SATURATE", "CRPIX1", "CRPIX2", "CRVAL1", "CRVAL2", "CDELT1", "CDELT2", "CTYPE1", "CTYPE2", "EQUINOX", "RADESYS"]))) ++
        m.custom.map (·.key)) := by
  unfold metadataOps
  have hopt : ∀ k v c, (opKeys (optOp k v c)).Sublist [k] := fun k v c => by
    rw [opKeys_optOp]; split <;> simp
  have hexp : (opKeys (if 0 < m.exptime then [.key "EXPTIME" (.flt m.exptime) (some "[s] Exposure time".toList)] else [])).Sublist
      ["EXPTIME"] := by split <;> simp [opKeys]
  simp only [opKeys_append, opKeys_text, List.append_nil]
  refine List.Sublist.append ?_ (opKeys_custom _)
  simp only [List.append_assoc]
  iterate 6 refine (opKeys_strOp _ _ _).append ?_
  refine hexp.append ?_
  iterate 2 refine (opKeys_strOp _ _ _).append ?_
  rw [opKeys_optOp, opKeys_optOp "DATAMAX"]
  refine (List.Sublist.refl _).append ((List.Sublist.refl _).append ?_)
  refine (hopt _ _ _).append (l₂ := ["SATURATE"]) ?_
  split
  · simp only [opKeys_append, List.append_assoc]
    iterate 6 refine (hopt _ _ _).append ?_
    iterate 2 refine (opKeys_strOp _ _ _).append ?_
    refine List.Sublist.append (l₂ := ["EQUINOX"]) (by simp [opKeys]) (opKeys_strOp _ _ _)
  · simp [opKeys]

theorem completed_datamin (p : Pixels) (m : Info) : (completed p m).datamin = m.datamin := by unfold completed; split <;> rfl
theorem completed_datamax (p : Pixels) (m : Info) : (completed p m).datamax = m.datamax := by unfold completed; split <;> rfl
theorem completed_custom (p : Pixels) (m : Info) : (completed p m).custom = m.custom := by unfold completed; split <;> rfl

/-- The keys written, apart from those of custom keywords. -/
def beforeB (a b : Bool) : List String :=
  ["OBJECT", "TELESCOP", "INSTRUME", "OBSERVER", "DATE-OBS", "ORIGIN", "EXPTIME", "FILTER", "BUNIT"] ++
    ((if a then ["DATAMIN"] else []) ++ ((if b then ["DATAMAX"] else []) ++
    ["SATURATE", "CRPIX1", "CRPIX2", "CRVAL1", "CRVAL2", "CDELT1", "CDELT2", "CTYPE1", "CTYPE2", "EQUINOX", "RADESYS"]))
def behindB (a b : Bool) : List String :=
  (if a then [] else ["DATAMIN"]) ++ ((if b then [] else ["DATAMAX"]) ++ ["BLANK"])
def before (m : Info) : List String := beforeB m.datamin.isSome m.datamax.isSome
def behind (m : Info) : List String := behindB m.datamin.isSome m.datamax.isSome

theorem opKeys_header (p : Pixels) (m : Info) :
    (opKeys (headerOps p m)).Sublist (before m ++ m.custom.map (·.key) ++ behind m) := by
  unfold headerOps
  simp only [opKeys_append]
  have h := opKeys_metadata (completed p m)
  rw [completed_datamin, completed_datamax, completed_custom] at h
  rw [List.append_assoc, List.append_assoc]
  refine List.Sublist.append h ?_
  unfold behind behindB
  refine List.Sublist.append ?_ (List.Sublist.append ?_ ?_)
  · cases m.datamin <;> simp [opKeys]
  · cases m.datamax <;> simp [opKeys]
  · unfold blankOp; split <;> simp [opKeys]

theorem before_reserved (m : Info) : ∀ k ∈ before m ++ behind m, k ∈ reserved := by
  have h : ∀ a b, ∀ k ∈ beforeB a b ++ behindB a b, k ∈ reserved := by decide
  exact h _ _

theorem frame_nodup (m : Info) : (before m ++ behind m).Nodup := by
  have h : ∀ a b, (beforeB a b ++ behindB a b).Nodup := by decide
  exact h _ _

theorem keys_nodup (p : Pixels) (m : Info) (hn : Named m.custom) : (opKeys (headerOps p m)).Nodup := by
  refine List.Nodup.sublist (opKeys_header p m) ?_
  have h1 := frame_nodup m
  have hr : ∀ k ∈ m.custom.map (·.key), k ∉ before m ++ behind m := by
    intro k hk hk'
    obtain ⟨kw, hkw, rfl⟩ := List.mem_map.1 hk
    exact (hn.2 kw hkw).2 (before_reserved m _ hk')
  rw [List.append_assoc]
  refine (List.perm_append_comm.append_left _ |>.nodup_iff).1 ?_
  rw [← List.append_assoc]
  refine List.Nodup.append h1 hn.1 ?_
  intro k hk hk'
  exact hr k hk' hk

theorem initial_new (p : Pixels) {k : String} (hk : k ∉ ["SIMPLE", "BITPIX", "NAXIS", "NAXIS1", "NAXIS2", "EXTEND"]) :
    lookup (initial p) k = none := by
  simp only [List.mem_cons, List.not_mem_nil, or_false, not_or] at hk
  obtain ⟨h1, h2, h3, h4, h5, h6⟩ := hk
  simp [lookup, initial, Ne.symm h1, Ne.symm h2, Ne.symm h3, Ne.symm h4, Ne.symm h5, Ne.symm h6]

theorem keys_new (p : Pixels) (m : Info) (hn : Named m.custom) : ∀ k ∈ opKeys (headerOps p m), lookup (initial p) k = none := by
  intro k hk
  have h := (opKeys_header p m).subset hk
  apply initial_new
  rw [List.mem_append, List.mem_append] at h
  rcases h with (h | h) | h
  · have : ∀ k ∈ before m, k ∉ ["SIMPLE", "BITPIX", "NAXIS", "NAXIS1", "NAXIS2", "EXTEND"] := by
      unfold before
      cases m.datamin <;> cases m.datamax <;> simp only [Option.isSome, Option.isNone] <;> decide
    exact this k h
  · obtain ⟨kw, hkw, rfl⟩ := List.mem_map.1 h
    intro hk
    refine (hn.2 kw hkw).2 ?_
    have : ∀ k ∈ ["SIMPLE", "BITPIX", "NAXIS", "NAXIS1", "NAXIS2", "EXTEND"], k ∈ reserved := by decide
    exact this _ hk
  · have : ∀ k ∈ behind m, k ∉ ["SIMPLE", "BITPIX", "NAXIS", "NAXIS1", "NAXIS2", "EXTEND"] := by
      unfold behind
      cases m.datamin <;> cases m.datamax <;> simp only [Option.isSome, Option.isNone] <;> decide
    exact this k h

/-- The header is what CFITSIO starts with followed by the cards of the calls. -/
theorem header_cards (p : Pixels) (m : Info) (hn : Named m.custom) :
    writeHeader p m = initial p ++ (headerOps p m).flatMap Op.cards :=
  run_new _ _ (keys_nodup p m hn) (keys_new p m hn)

/-! ### looking fields up -/

def lk (l : List Op) (k : String) : Option Val := lookup (l.flatMap Op.cards) k

theorem lk_append (a b : List Op) (k : String) : lk (a ++ b) k = (lk a k).or (lk b k) := by
  simp [lk, List.flatMap_append, lookup_append]
theorem lk_nil (k : String) : lk [] k = none := rfl
theorem lk_key (k' : String) (v : In) (c : Option Str) (k : String) :
    lk [.key k' v c] k = if k' = k then some (enc v) else none := by
  simp [lk, Op.cards, lookup]
theorem lk_strOp (k' : String) (s : Str) (c : Option Str) (k : String) :
    lk (strOp k' s c) k = if k' = k then (if s.isEmpty then none else some (.str (storeStr s))) else none := by
  unfold strOp
  split
  · simp [lk_nil]
  · rw [lk_key]; rfl
theorem lk_optOp (k' : String) (v : Option ℚ) (c : String) (k : String) :
    lk (optOp k' v c) k = if k' = k then v.map fun q => .real (sci 10 q) else none := by
  cases v with
  | none => simp [optOp, lk_nil]
  | some q => simp only [optOp, lk_key]; rfl
theorem lk_text (k' : String) (l : List Str) (k : String) : lk (l.map (.text k')) k = none :=
  lookup_flat (by rw [opKeys_text]; simp)
theorem lk_custom {l : List Keyword} (hn : Named l) {k : String} (hk : k ∈ reserved) : lk (l.flatMap customOp) k = none := by
  refine lookup_flat fun h => ?_
  obtain ⟨kw, hkw, rfl⟩ := List.mem_map.1 ((opKeys_custom l).subset h)
  exact (hn.2 kw hkw).2 hk

theorem lookup_header (p : Pixels) (m : Info) (hn : Named m.custom) {k : String}
    (hk : k ∉ ["SIMPLE", "BITPIX", "NAXIS", "NAXIS1", "NAXIS2", "EXTEND"]) :
    lookup (writeHeader p m) k = lk (headerOps p m) k := by
  rw [header_cards p m hn, lookup_append, initial_new p hk, Option.none_or, lk]

theorem lookup_mem {l : List Op} (hd : (opKeys l).Nodup) {k : String} {v : In} {c : Option Str} (h : Op.key k v c ∈ l) :
    lk l k = some (enc v) := by
  induction l with
  | nil => simp at h
  | cons o l ih =>
    have e : opKeys (o :: l) = opKeys [o] ++ opKeys l := by simp [opKeys, ← List.filterMap_append]
    rw [e] at hd
    rw [← List.singleton_append, lk_append]
    rcases List.mem_cons.1 h with rfl | h
    · rw [lk_key, if_pos rfl]; rfl
    · have hk : k ∈ opKeys l := List.mem_filterMap.2 ⟨_, h, rfl⟩
      have hn : k ∉ opKeys [o] := fun h' => (List.disjoint_of_nodup_append hd) h' hk
      have : lk [o] k = none := lookup_flat hn
      rw [this, ih (List.Nodup.of_append_right hd) h]; rfl

/-! ### texts -/

/-- What a text becomes: cut into cards, blank cards and trailing blanks lost. -/
def textCards (s : Str) : List Str := ((chunks s).map fun t => stripR (t.map printable)).filter (· ≠ [])

def tx (k : String) (l : List Op) : List Str := (l.flatMap Op.cards).filterMap (textOf k)

theorem tx_append (k : String) (a b : List Op) : tx k (a ++ b) = tx k a ++ tx k b := by simp [tx]
theorem tx_key (k k' : String) (v : In) (c : Option Str) : tx k [.key k' v c] = [] := by simp [tx, Op.cards, textOf]
theorem tx_nil (k : String) : tx k [] = [] := rfl
theorem tx_strOp (k k' : String) (s : Str) (c : Option Str) : tx k (strOp k' s c) = [] := by
  unfold strOp; split
  · rfl
  · exact tx_key _ _ _ _
theorem tx_optOp (k k' : String) (v : Option ℚ) (c : String) : tx k (optOp k' v c) = [] := by
  cases v with
  | none => rfl
  | some q => exact tx_key _ _ _ _
theorem tx_custom (k : String) (l : List Keyword) : tx k (l.flatMap customOp) = [] := by
  induction l with
  | nil => rfl
  | cons kw l ih =>
    rw [List.flatMap_cons, tx_append, ih, List.append_nil]
    unfold customOp
    cases kw.value <;> first | exact tx_strOp _ _ _ _ | exact tx_key _ _ _ _
theorem tx_text (k k' : String) (l : List Str) : tx k (l.map (.text k')) = if k' = k then l.flatMap textCards else [] := by
  induction l with
  | nil => simp [tx]
  | cons s l ih =>
    rw [List.map_cons, ← List.singleton_append, tx_append, ih]
    have : tx k [.text k' s] = if k' = k then textCards s else [] := by
      simp only [tx, Op.cards, List.flatMap_cons, List.flatMap_nil, List.append_nil, List.filterMap_map]
      unfold textCards
      split
      · rename_i h
        rw [← List.filterMap_eq_filter, List.filterMap_map]
        congr 1
        funext t
        simp [textOf, h, Option.guard]
      · rename_i h
        rw [List.filterMap_eq_nil_iff]
        intro t _
        simp [textOf, h]
    rw [this]
    split <;> simp

/-! ### custom keywords -/

def cu (f : Cfitsio) (h : List Card) (l : List Op) : List Keyword := (l.flatMap Op.cards).filterMap (customOf f h)

theorem cu_append (f : Cfitsio) (h : List Card) (a b : List Op) : cu f h (a ++ b) = cu f h a ++ cu f h b := by simp [cu]
theorem cu_known (f : Cfitsio) (h : List Card) {k : String} (hk : k ∈ known) (v : In) (c : Option Str) : cu f h [.key k v c] = [] := by
  simp [cu, Op.cards, customOf, hk]
theorem cu_strOp (f : Cfitsio) (h : List Card) {k : String} (hk : k ∈ known) (s : Str) (c : Option Str) : cu f h (strOp k s c) = [] := by
  unfold strOp; split
  · rfl
  · exact cu_known f h hk _ _
theorem cu_optOp (f : Cfitsio) (h : List Card) {k : String} (hk : k ∈ known) (v : Option ℚ) (c : String) : cu f h (optOp k v c) = [] := by
  cases v with
  | none => rfl
  | some q => exact cu_known f h hk _ _
theorem cu_text (f : Cfitsio) (h : List Card) (k : String) (l : List Str) : cu f h (l.map (.text k)) = [] := by
  unfold cu
  rw [List.filterMap_eq_nil_iff]
  intro c hc
  simp only [List.mem_flatMap, List.mem_map] at hc
  obtain ⟨o, ⟨s, _, rfl⟩, hc⟩ := hc
  simp only [Op.cards, List.mem_map] at hc
  obtain ⟨t, _, rfl⟩ := hc
  rfl

/-- The value that comes back. -/
def backVal (f : Cfitsio) : In → In
  | .str s => .str (storeStr s)
  | .dbl v => .dbl (f.rd (sci 10 v))
  | .flt v => .dbl (f.rd (sci 6 v))
  | .int i => .int (toInt i)
  | .log b => .log b

/-- The keyword that comes back. -/
def backKw (f : Cfitsio) (kw : Keyword) : Keyword := ⟨kw.key, backVal f kw.value, storeComment kw.value kw.comment⟩

/-- A keyword is written unless its value is the empty string. -/
def written (kw : Keyword) : Bool :=
  match kw.value with
  | .str s => !s.isEmpty
  | _ => true

theorem customValue_enc (f : Cfitsio) (h : List Card) (k : String) (v : In) (hl : lookup h k = some (enc v)) :
    customValue f h k (enc v) = backVal f v := by
  cases v <;> simp [customValue, readStr, hl, enc, backVal]

theorem cu_key (f : Cfitsio) (h : List Card) {k : String} (hk : k ∉ known) (hk' : k ≠ "") (v : In) (c : Option Str)
    (hl : lookup h k = some (enc v)) : cu f h [.key k v c] = [⟨k, backVal f v, storeComment v (c.getD [])⟩] := by
  simp [cu, Op.cards, customOf, hk, hk', customValue_enc f h k v hl]

theorem cu_custom (f : Cfitsio) (h : List Card) (l : List Keyword) (hn : ∀ kw ∈ l, kw.key ∉ reserved)
    (hl : ∀ o ∈ l.flatMap customOp, ∀ k v c, o = Op.key k v c → lookup h k = some (enc v)) :
    cu f h (l.flatMap customOp) = (l.filter written).map (backKw f) := by
  induction l with
  | nil => rfl
  | cons kw l ih =>
    rw [List.flatMap_cons, cu_append, ih (fun x hx => hn x (List.mem_cons_of_mem _ hx))
      (fun o ho => hl o (by rw [List.flatMap_cons]; exact List.mem_append_right _ ho))]
    have hr := hn kw List.mem_cons_self
    have hk : kw.key ∉ known := fun h => hr (List.mem_append_left _ h)
    have hk' : kw.key ≠ "" := fun h => hr (by rw [h]; decide)
    have hg : (if kw.comment.isEmpty then none else some kw.comment).getD [] = kw.comment := by
      split
      · rename_i h; simpa using h.symm
      · rfl
    have key : cu f h (customOp kw) = if written kw then [backKw f kw] else [] := by
      have hl' : ∀ o ∈ customOp kw, ∀ k v c, o = Op.key k v c → lookup h k = some (enc v) :=
        fun o ho => hl o (by rw [List.flatMap_cons]; exact List.mem_append_left _ ho)
      unfold customOp at hl' ⊢
      unfold written backKw
      cases hv : kw.value with
      | str s =>
        simp only [hv, strOp] at hl' ⊢
        by_cases hs : s.isEmpty
        · simp [hs, cu]
        · simp only [hs] at hl' ⊢
          rw [if_neg (by simp), cu_key f h hk hk' _ _ (hl' _ List.mem_cons_self _ _ _ rfl), hg]; rfl
      | dbl v =>
        simp only [hv] at hl' ⊢
        rw [cu_key f h hk hk' _ _ (hl' _ List.mem_cons_self _ _ _ rfl), hg]; rfl
      | flt v =>
        simp only [hv] at hl' ⊢
        rw [cu_key f h hk hk' _ _ (hl' _ List.mem_cons_self _ _ _ rfl), hg]; rfl
      | int v =>
        simp only [hv] at hl' ⊢
        rw [cu_key f h hk hk' _ _ (hl' _ List.mem_cons_self _ _ _ rfl), hg]; rfl
      | log v =>
        simp only [hv] at hl' ⊢
        rw [cu_key f h hk hk' _ _ (hl' _ List.mem_cons_self _ _ _ rfl), hg]; rfl
    rw [key, List.filter_cons]
    split <;> simp

/-! ### what comes back -/

/-- The two cards CFITSIO adds to every file. -/
def standardComments : List Str :=
  ["  FITS (Flexible Image Transport System) format is defined in 'Astronomy".toList,
   "  and Astrophysics', volume 376, page 359; bibcode: 2001A&A...376..359H".toList]

/-- The keyword of undefined pixels. -/
def blankKw (p : Pixels) : List Keyword :=
  match p.blank with
  | some b => [⟨"BLANK", .int (toInt b), "Value representing undefined pixels".toList⟩]
  | none => []

/-- What reading gives for the metadata `m` handed to the writer. -/
def returned (f : Cfitsio) (p : Pixels) (m : Info) : Info where
  object := storeStr m.object
  telescop := storeStr m.telescop
  instrume := storeStr m.instrume
  observer := storeStr m.observer
  dateObs := storeStr m.dateObs
  origin := storeStr m.origin
  exptime := if 0 < m.exptime then f.rf (sci 6 m.exptime) else 0
  filter := storeStr m.filter
  bunit := if 0 < p.bitpix ∧ m.bunit = [] then "adu".toList else storeStr m.bunit
  datamin := some (f.rd (sci 10 (m.datamin.getD p.least)))
  datamax := some (f.rd (sci 10 (m.datamax.getD p.greatest)))
  saturate := (if 0 < p.bitpix then some (m.saturate.getD p.adcMax) else m.saturate).map fun v => f.rd (sci 10 v)
  crpix1 := if m.hasWcs then m.crpix1.map fun v => f.rd (sci 10 v) else none
  crpix2 := if m.hasWcs then m.crpix2.map fun v => f.rd (sci 10 v) else none
  crval1 := if m.hasWcs then m.crval1.map fun v => f.rd (sci 10 v) else none
  crval2 := if m.hasWcs then m.crval2.map fun v => f.rd (sci 10 v) else none
  cdelt1 := if m.hasWcs then m.cdelt1.map fun v => f.rd (sci 10 v) else none
  cdelt2 := if m.hasWcs then m.cdelt2.map fun v => f.rd (sci 10 v) else none
  ctype1 := if m.hasWcs then storeStr m.ctype1 else []
  ctype2 := if m.hasWcs then storeStr m.ctype2 else []
  equinox := if m.hasWcs then f.rd (sci 10 m.equinox) else 2000
  radesys := if m.hasWcs ∧ storeStr m.radesys ≠ [] then storeStr m.radesys else "ICRS".toList
  comments := standardComments ++ m.comments.flatMap textCards
  history := m.history.flatMap textCards
  custom := (m.custom.filter written).map (backKw f) ++ blankKw p

theorem lk_ite (b : Prop) [Decidable b] (l l' : List Op) (k : String) : lk (if b then l else l') k = if b then lk l k else lk l' k := by
  split <;> rfl

theorem lk_blank (p : Pixels) {k : String} (hk : "BLANK" ≠ k) : lk (blankOp p) k = none := by
  unfold blankOp
  split
  · rw [lk_key, if_neg hk]
  · rfl

theorem readStr_lk {f : Cfitsio} {h : List Card} {k : String} {s : Str}
    (hl : lookup h k = if s.isEmpty then none else some (.str (storeStr s))) : readStr f h k = storeStr s := by
  unfold readStr
  rw [hl]
  by_cases e : s.isEmpty
  · rw [if_pos e]
    rw [List.isEmpty_iff] at e
    subst e
    rfl
  · rw [if_neg e]

theorem readDbl_lk {f : Cfitsio} {h : List Card} {k : String} {v : Option ℚ}
    (hl : lookup h k = v.map fun q => .real (sci 10 q)) : readDbl f h k = .ok (v.map fun q => f.rd (sci 10 q)) := by
  unfold readDbl
  rw [hl]
  cases v <;> rfl

theorem readStr_wcs {f : Cfitsio} {h : List Card} {k : String} {s : Str} {b : Bool}
    (hl : lookup h k = if b then (if s.isEmpty then none else some (.str (storeStr s))) else none) :
    readStr f h k = if b then storeStr s else [] := by
  cases b
  · unfold readStr; rw [hl]; rfl
  · exact readStr_lk hl

theorem readDbl_wcs {f : Cfitsio} {h : List Card} {k : String} {v : Option ℚ} {b : Bool}
    (hl : lookup h k = if b then v.map (fun q => .real (sci 10 q)) else none) :
    readDbl f h k = .ok (if b then v.map (fun q => f.rd (sci 10 q)) else none) := by
  cases b
  · unfold readDbl; rw [hl]; rfl
  · exact readDbl_lk hl

section
variable {m : Info} (hn : Named m.custom)
include hn

theorem field_object : lk (metadataOps m) "OBJECT" = if m.object.isEmpty then none else some (.str (storeStr m.object)) := by
  unfold metadataOps
  simp only [lk_append, lk_strOp, lk_optOp, lk_text, lk_ite, lk_key, lk_nil, lk_custom hn (k := "OBJECT") (by decide),
    String.reduceEq, if_true, if_false, Option.or_none, Option.none_or, ite_self, reduceIte]

theorem field_telescop : lk (metadataOps m) "TELESCOP" = if m.telescop.isEmpty then none else some (.str (storeStr m.telescop)) := by
  unfold metadataOps
  simp only [lk_append, lk_strOp, lk_optOp, lk_text, lk_ite, lk_key, lk_nil, lk_custom hn (k := "TELESCOP") (by decide),
    String.reduceEq, if_true, if_false, Option.or_none, Option.none_or, ite_self, reduceIte]

theorem field_instrume : lk (metadataOps m) "INSTRUME" = if m.instrume.isEmpty then none else some (.str (storeStr m.instrume)) := by
  unfold metadataOps
  simp only [lk_append, lk_strOp, lk_optOp, lk_text, lk_ite, lk_key, lk_nil, lk_custom hn (k := "INSTRUME") (by decide),
    String.reduceEq, if_true, if_false, Option.or_none, Option.none_or, ite_self, reduceIte]

theorem field_observer : lk (metadataOps m) "OBSERVER" = if m.observer.isEmpty then none else some (.str (storeStr m.observer)) := by
  unfold metadataOps
  simp only [lk_append, lk_strOp, lk_optOp, lk_text, lk_ite, lk_key, lk_nil, lk_custom hn (k := "OBSERVER") (by decide),
    String.reduceEq, if_true, if_false, Option.or_none, Option.none_or, ite_self, reduceIte]

theorem field_dateObs : lk (metadataOps m) "DATE-OBS" = if m.dateObs.isEmpty then none else some (.str (storeStr m.dateObs)) := by
  unfold metadataOps
  simp only [lk_append, lk_strOp, lk_optOp, lk_text, lk_ite, lk_key, lk_nil, lk_custom hn (k := "DATE-OBS") (by decide),
    String.reduceEq, if_true, if_false, Option.or_none, Option.none_or, ite_self, reduceIte]

theorem field_origin : lk (metadataOps m) "ORIGIN" = if m.origin.isEmpty then none else some (.str (storeStr m.origin)) := by
  unfold metadataOps
  simp only [lk_append, lk_strOp, lk_optOp, lk_text, lk_ite, lk_key, lk_nil, lk_custom hn (k := "ORIGIN") (by decide),
    String.reduceEq, if_true, if_false, Option.or_none, Option.none_or, ite_self, reduceIte]

theorem field_filter : lk (metadataOps m) "FILTER" = if m.filter.isEmpty then none else some (.str (storeStr m.filter)) := by
  unfold metadataOps
  simp only [lk_append, lk_strOp, lk_optOp, lk_text, lk_ite, lk_key, lk_nil, lk_custom hn (k := "FILTER") (by decide),
    String.reduceEq, if_true, if_false, Option.or_none, Option.none_or, ite_self, reduceIte]

theorem field_bunit : lk (metadataOps m) "BUNIT" = if m.bunit.isEmpty then none else some (.str (storeStr m.bunit)) := by
  unfold metadataOps
  simp only [lk_append, lk_strOp, lk_optOp, lk_text, lk_ite, lk_key, lk_nil, lk_custom hn (k := "BUNIT") (by decide),
    String.reduceEq, if_true, if_false, Option.or_none, Option.none_or, ite_self, reduceIte]

theorem field_ctype1 : lk (metadataOps m) "CTYPE1" = if m.hasWcs then (if m.ctype1.isEmpty then none else some (.str (storeStr m.ctype1))) else none := by
  unfold metadataOps
  simp only [lk_append, lk_strOp, lk_optOp, lk_text, lk_ite, lk_key, lk_nil, lk_custom hn (k := "CTYPE1") (by decide),
    String.reduceEq, if_true, if_false, Option.or_none, Option.none_or, ite_self, reduceIte]

theorem field_ctype2 : lk (metadataOps m) "CTYPE2" = if m.hasWcs then (if m.ctype2.isEmpty then none else some (.str (storeStr m.ctype2))) else none := by
  unfold metadataOps
  simp only [lk_append, lk_strOp, lk_optOp, lk_text, lk_ite, lk_key, lk_nil, lk_custom hn (k := "CTYPE2") (by decide),
    String.reduceEq, if_true, if_false, Option.or_none, Option.none_or, ite_self, reduceIte]

theorem field_radesys : lk (metadataOps m) "RADESYS" = if m.hasWcs then (if m.radesys.isEmpty then none else some (.str (storeStr m.radesys))) else none := by
  unfold metadataOps
  simp only [lk_append, lk_strOp, lk_optOp, lk_text, lk_ite, lk_key, lk_nil, lk_custom hn (k := "RADESYS") (by decide),
    String.reduceEq, if_true, if_false, Option.or_none, Option.none_or, ite_self, reduceIte]

theorem field_datamin : lk (metadataOps m) "DATAMIN" = m.datamin.map fun q => .real (sci 10 q) := by
  unfold metadataOps
  simp only [lk_append, lk_strOp, lk_optOp, lk_text, lk_ite, lk_key, lk_nil, lk_custom hn (k := "DATAMIN") (by decide),
    String.reduceEq, if_true, if_false, Option.or_none, Option.none_or, ite_self, reduceIte]

theorem field_datamax : lk (metadataOps m) "DATAMAX" = m.datamax.map fun q => .real (sci 10 q) := by
  unfold metadataOps
  simp only [lk_append, lk_strOp, lk_optOp, lk_text, lk_ite, lk_key, lk_nil, lk_custom hn (k := "DATAMAX") (by decide),
    String.reduceEq, if_true, if_false, Option.or_none, Option.none_or, ite_self, reduceIte]

theorem field_saturate : lk (metadataOps m) "SATURATE" = m.saturate.map fun q => .real (sci 10 q) := by
  unfold metadataOps
  simp only [lk_append, lk_strOp, lk_optOp, lk_text, lk_ite, lk_key, lk_nil, lk_custom hn (k := "SATURATE") (by decide),
    String.reduceEq, if_true, if_false, Option.or_none, Option.none_or, ite_self, reduceIte]

theorem field_crpix1 : lk (metadataOps m) "CRPIX1" = if m.hasWcs then m.crpix1.map (fun q => .real (sci 10 q)) else none := by
  unfold metadataOps
  simp only [lk_append, lk_strOp, lk_optOp, lk_text, lk_ite, lk_key, lk_nil, lk_custom hn (k := "CRPIX1") (by decide),
    String.reduceEq, if_true, if_false, Option.or_none, Option.none_or, ite_self, reduceIte]

theorem field_crpix2 : lk (metadataOps m) "CRPIX2" = if m.hasWcs then m.crpix2.map (fun q => .real (sci 10 q)) else none := by
  unfold metadataOps
  simp only [lk_append, lk_strOp, lk_optOp, lk_text, lk_ite, lk_key, lk_nil, lk_custom hn (k := "CRPIX2") (by decide),
    String.reduceEq, if_true, if_false, Option.or_none, Option.none_or, ite_self, reduceIte]

theorem field_crval1 : lk (metadataOps m) "CRVAL1" = if m.hasWcs then m.crval1.map (fun q => .real (sci 10 q)) else none := by
  unfold metadataOps
  simp only [lk_append, lk_strOp, lk_optOp, lk_text, lk_ite, lk_key, lk_nil, lk_custom hn (k := "CRVAL1") (by decide),
    String.reduceEq, if_true, if_false, Option.or_none, Option.none_or, ite_self, reduceIte]

theorem field_crval2 : lk (metadataOps m) "CRVAL2" = if m.hasWcs then m.crval2.map (fun q => .real (sci 10 q)) else none := by
  unfold metadataOps
  simp only [lk_append, lk_strOp, lk_optOp, lk_text, lk_ite, lk_key, lk_nil, lk_custom hn (k := "CRVAL2") (by decide),
    String.reduceEq, if_true, if_false, Option.or_none, Option.none_or, ite_self, reduceIte]

theorem field_cdelt1 : lk (metadataOps m) "CDELT1" = if m.hasWcs then m.cdelt1.map (fun q => .real (sci 10 q)) else none := by
  unfold metadataOps
  simp only [lk_append, lk_strOp, lk_optOp, lk_text, lk_ite, lk_key, lk_nil, lk_custom hn (k := "CDELT1") (by decide),
    String.reduceEq, if_true, if_false, Option.or_none, Option.none_or, ite_self, reduceIte]

theorem field_cdelt2 : lk (metadataOps m) "CDELT2" = if m.hasWcs then m.cdelt2.map (fun q => .real (sci 10 q)) else none := by
  unfold metadataOps
  simp only [lk_append, lk_strOp, lk_optOp, lk_text, lk_ite, lk_key, lk_nil, lk_custom hn (k := "CDELT2") (by decide),
    String.reduceEq, if_true, if_false, Option.or_none, Option.none_or, ite_self, reduceIte]

theorem field_exptime : lk (metadataOps m) "EXPTIME" = if 0 < m.exptime then some (enc (.flt m.exptime)) else none := by
  unfold metadataOps
  simp only [lk_append, lk_strOp, lk_optOp, lk_text, lk_ite, lk_key, lk_nil, lk_custom hn (k := "EXPTIME") (by decide),
    String.reduceEq, if_true, if_false, Option.or_none, Option.none_or, ite_self, reduceIte]

theorem field_equinox : lk (metadataOps m) "EQUINOX" = if m.hasWcs then some (enc (.dbl m.equinox)) else none := by
  unfold metadataOps
  simp only [lk_append, lk_strOp, lk_optOp, lk_text, lk_ite, lk_key, lk_nil, lk_custom hn (k := "EQUINOX") (by decide),
    String.reduceEq, if_true, if_false, Option.or_none, Option.none_or, ite_self, reduceIte]

end

theorem named_completed {p : Pixels} {m : Info} (hn : Named m.custom) : Named (completed p m).custom := by
  rw [completed_custom]; exact hn

theorem lookup_field (p : Pixels) (m : Info) (hn : Named m.custom) {k : String}
    (hk : k ∉ ["SIMPLE", "BITPIX", "NAXIS", "NAXIS1", "NAXIS2", "EXTEND", "DATAMIN", "DATAMAX", "BLANK"]) :
    lookup (writeHeader p m) k = lk (metadataOps (completed p m)) k := by
  simp only [List.mem_cons, List.not_mem_nil, or_false, not_or] at hk
  obtain ⟨h1, h2, h3, h4, h5, h6, h7, h8, h9⟩ := hk
  rw [lookup_header p m hn (by simp [h1, h2, h3, h4, h5, h6])]
  unfold headerOps
  simp only [lk_append, lk_ite, lk_key, lk_nil, lk_blank p (Ne.symm h9), if_neg (Ne.symm h7), if_neg (Ne.symm h8), ite_self,
    Option.or_none]

theorem lookup_datamin (p : Pixels) (m : Info) (hn : Named m.custom) :
    lookup (writeHeader p m) "DATAMIN" = some (.real (sci 10 (m.datamin.getD p.least))) := by
  rw [lookup_header p m hn (by decide)]
  unfold headerOps
  simp only [lk_append, lk_ite, lk_key, lk_nil, lk_blank p (k := "DATAMIN") (by decide), field_datamin (named_completed hn),
    completed_datamin, String.reduceEq, reduceIte, ite_self, Option.or_none]
  cases m.datamin <;> rfl

theorem lookup_datamax (p : Pixels) (m : Info) (hn : Named m.custom) :
    lookup (writeHeader p m) "DATAMAX" = some (.real (sci 10 (m.datamax.getD p.greatest))) := by
  rw [lookup_header p m hn (by decide)]
  unfold headerOps
  simp only [lk_append, lk_ite, lk_key, lk_nil, lk_blank p (k := "DATAMAX") (by decide), field_datamax (named_completed hn),
    completed_datamax, String.reduceEq, reduceIte, ite_self, Option.or_none]
  cases m.datamax <;> rfl

theorem completed_wcs (p : Pixels) (m : Info) : (completed p m).hasWcs = m.hasWcs := by unfold completed; split <;> rfl

theorem tx_header (p : Pixels) (m : Info) (k : String) :
    tx k (headerOps p m) = (if "COMMENT" = k then m.comments.flatMap textCards else []) ++
      (if "HISTORY" = k then m.history.flatMap textCards else []) := by
  have h1 : tx k (blankOp p) = [] := by unfold blankOp; split <;> [exact tx_key _ _ _ _; rfl]
  have ite : ∀ (b : Prop) [Decidable b] (l : List Op), tx k l = [] → tx k (if b then l else []) = [] := by
    intro b _ l h; split <;> [exact h; rfl]
  have h2 : (completed p m).comments = m.comments := by unfold completed; split <;> rfl
  have h3 : (completed p m).history = m.history := by unfold completed; split <;> rfl
  unfold headerOps metadataOps
  simp only [tx_append, tx_strOp, tx_optOp, tx_text, tx_custom, h1, List.append_nil, List.nil_append, h2, h3]
  rw [ite _ _ (tx_key _ _ _ _), ite _ _ (tx_key _ _ _ _), ite _ _ (tx_key _ _ _ _), ite]
  · simp
  · simp only [tx_append, tx_strOp, tx_optOp, tx_key, List.append_nil]

theorem custom_header (f : Cfitsio) (p : Pixels) (m : Info) (hn : Named m.custom) :
    cu f (writeHeader p m) (headerOps p m) = (m.custom.filter written).map (backKw f) ++ blankKw p := by
  set h := writeHeader p m with hh
  have hlk : ∀ k v c, Op.key k v c ∈ headerOps p m →
      k ∉ ["SIMPLE", "BITPIX", "NAXIS", "NAXIS1", "NAXIS2", "EXTEND"] → lookup h k = some (enc v) := by
    intro k v c hm hk
    rw [hh, lookup_header p m hn hk]
    exact lookup_mem (keys_nodup p m hn) hm
  have h1 : cu f h (blankOp p) = blankKw p := by
    unfold blankKw
    cases hb : p.blank with
    | none => simp [blankOp, hb, cu]
    | some b =>
      simp only [blankOp, hb]
      rw [cu_key f h (by decide) (by decide) _ _ (hlk "BLANK" _ (some "Value representing undefined pixels".toList) ?_ (by decide))]
      · rfl
      · have : Op.key "BLANK" (.int b) (some "Value representing undefined pixels".toList) ∈ blankOp p := by
          rw [blankOp, hb]; exact List.mem_cons_self
        exact List.mem_append_right _ this
  have ite : ∀ (b : Prop) [Decidable b] (l : List Op), cu f h l = [] → cu f h (if b then l else []) = [] := by
    intro b _ l h; split <;> [exact h; rfl]
  have hc : cu f h (m.custom.flatMap customOp) = (m.custom.filter written).map (backKw f) := by
    refine cu_custom f h _ (fun kw hkw => (hn.2 kw hkw).2) ?_
    rintro o ho k v c rfl
    refine hlk k v c ?_ ?_
    · unfold headerOps metadataOps
      rw [completed_custom]
      simp only [List.mem_append]
      exact .inl (.inl (.inl (.inr ho)))
    · have : k ∈ opKeys (m.custom.flatMap customOp) := List.mem_filterMap.2 ⟨_, ho, rfl⟩
      obtain ⟨kw, hkw, rfl⟩ := List.mem_map.1 ((opKeys_custom _).subset this)
      intro hk
      refine (hn.2 kw hkw).2 ?_
      have : ∀ k ∈ ["SIMPLE", "BITPIX", "NAXIS", "NAXIS1", "NAXIS2", "EXTEND"], k ∈ reserved := by decide
      exact this _ hk
  unfold headerOps metadataOps
  simp only [cu_append, cu_text, completed_custom, hc, h1, List.append_nil, List.nil_append]
  rw [ite _ _ (cu_known f h (by decide) _ _), ite _ _ (cu_known f h (by decide) _ _), ite _ _ (cu_known f h (by decide) _ _), ite]
  · repeat rw [cu_strOp f h (by decide)]
    repeat rw [cu_optOp f h (by decide)]
    simp
  · simp only [cu_append]
    repeat rw [cu_strOp f h (by decide)]
    repeat rw [cu_optOp f h (by decide)]
    rw [cu_known f h (by decide)]
    rfl

theorem initial_comments (p : Pixels) : (initial p).filterMap (textOf "COMMENT") = standardComments := rfl
theorem initial_history (p : Pixels) : (initial p).filterMap (textOf "HISTORY") = [] := rfl
theorem initial_custom (f : Cfitsio) (h : List Card) (p : Pixels) : (initial p).filterMap (customOf f h) = [] := by
  simp [initial, customOf, known]

theorem comments_header (p : Pixels) (m : Info) (hn : Named m.custom) :
    (writeHeader p m).filterMap (textOf "COMMENT") = standardComments ++ m.comments.flatMap textCards := by
  rw [header_cards p m hn, List.filterMap_append, initial_comments]
  have := tx_header p m "COMMENT"
  rw [tx, if_pos rfl, if_neg (by decide), List.append_nil] at this
  rw [this]

theorem history_header (p : Pixels) (m : Info) (hn : Named m.custom) :
    (writeHeader p m).filterMap (textOf "HISTORY") = m.history.flatMap textCards := by
  rw [header_cards p m hn, List.filterMap_append, initial_history, List.nil_append]
  have := tx_header p m "HISTORY"
  rw [tx, if_neg (by decide), if_pos rfl, List.nil_append] at this
  rw [this]

theorem customs_header (f : Cfitsio) (p : Pixels) (m : Info) (hn : Named m.custom) :
    (writeHeader p m).filterMap (customOf f (writeHeader p m)) = (m.custom.filter written).map (backKw f) ++ blankKw p := by
  have := custom_header f p m hn
  unfold cu at this
  rw [← this]
  generalize hh : writeHeader p m = h
  conv_lhs => enter [2]; rw [← hh, header_cards p m hn]
  rw [List.filterMap_append, initial_custom, List.nil_append]

theorem storeStr_adu : storeStr "adu".toList = "adu".toList := by decide

attribute [local irreducible] writeHeader lk metadataOps completed sci storeStr in
/-- **C129**: what reading a file gives, for all metadata with sensible names of custom keywords. -/
theorem C129_read (f : Cfitsio) (p : Pixels) (m : Info) (hn : Named m.custom) :
    readHeader f (writeHeader p m) = .ok (returned f p m) := by
  have hs : ∀ {k : String} {s : Str}, lookup (writeHeader p m) k = (if s.isEmpty then none else some (.str (storeStr s))) →
      readStr f (writeHeader p m) k = storeStr s := fun h => readStr_lk h
  have hN := named_completed (p := p) hn
  have kk : ∀ {k : String}, k ∉ ["SIMPLE", "BITPIX", "NAXIS", "NAXIS1", "NAXIS2", "EXTEND", "DATAMIN", "DATAMAX", "BLANK"] →
    lookup (writeHeader p m) k = lk (metadataOps (completed p m)) k := fun h => lookup_field p m hn h
  have wstr : ∀ {k : String} {s : Str}, lookup (writeHeader p m) k =
      (if m.hasWcs then (if s.isEmpty then none else some (.str (storeStr s))) else none) →
      readStr f (writeHeader p m) k = if m.hasWcs then storeStr s else [] := fun h => readStr_wcs h
  have wdbl : ∀ {k : String} {v : Option ℚ}, lookup (writeHeader p m) k =
      (if m.hasWcs then v.map (fun q => .real (sci 10 q)) else none) →
      readDbl f (writeHeader p m) k = .ok (if m.hasWcs then v.map (fun q => f.rd (sci 10 q)) else none) := fun h => readDbl_wcs h
  have cw := completed_wcs p m
  have c1 : (completed p m).object = m.object ∧ (completed p m).telescop = m.telescop ∧ (completed p m).instrume = m.instrume ∧
      (completed p m).observer = m.observer ∧ (completed p m).dateObs = m.dateObs ∧ (completed p m).origin = m.origin ∧
      (completed p m).filter = m.filter ∧ (completed p m).exptime = m.exptime ∧ (completed p m).equinox = m.equinox ∧
      (completed p m).ctype1 = m.ctype1 ∧ (completed p m).ctype2 = m.ctype2 ∧ (completed p m).radesys = m.radesys ∧
      (completed p m).crpix1 = m.crpix1 ∧ (completed p m).crpix2 = m.crpix2 ∧ (completed p m).crval1 = m.crval1 ∧
      (completed p m).crval2 = m.crval2 ∧ (completed p m).cdelt1 = m.cdelt1 ∧ (completed p m).cdelt2 = m.cdelt2 := by
    unfold completed; split <;> simp
  obtain ⟨a1, a2, a3, a4, a5, a6, a7, a8, a9, b1, b2, b3, b4, b5, b6, b7, b8, b9⟩ := c1
  have e1 := hs ((kk (k := "OBJECT") (by decide)).trans (by rw [field_object hN, a1]))
  have e2 := hs ((kk (k := "TELESCOP") (by decide)).trans (by rw [field_telescop hN, a2]))
  have e3 := hs ((kk (k := "INSTRUME") (by decide)).trans (by rw [field_instrume hN, a3]))
  have e4 := hs ((kk (k := "OBSERVER") (by decide)).trans (by rw [field_observer hN, a4]))
  have e5 := hs ((kk (k := "DATE-OBS") (by decide)).trans (by rw [field_dateObs hN, a5]))
  have e6 := hs ((kk (k := "ORIGIN") (by decide)).trans (by rw [field_origin hN, a6]))
  have e7 := hs ((kk (k := "FILTER") (by decide)).trans (by rw [field_filter hN, a7]))
  have e8 := hs ((kk (k := "BUNIT") (by decide)).trans (field_bunit hN))
  have w1 := wstr ((kk (k := "CTYPE1") (by decide)).trans (by rw [field_ctype1 hN, b1, cw]))
  have w2 := wstr ((kk (k := "CTYPE2") (by decide)).trans (by rw [field_ctype2 hN, b2, cw]))
  have w3 := wstr ((kk (k := "RADESYS") (by decide)).trans (by rw [field_radesys hN, b3, cw]))
  have d1 := wdbl ((kk (k := "CRPIX1") (by decide)).trans (by rw [field_crpix1 hN, b4, cw]))
  have d2 := wdbl ((kk (k := "CRPIX2") (by decide)).trans (by rw [field_crpix2 hN, b5, cw]))
  have d3 := wdbl ((kk (k := "CRVAL1") (by decide)).trans (by rw [field_crval1 hN, b6, cw]))
  have d4 := wdbl ((kk (k := "CRVAL2") (by decide)).trans (by rw [field_crval2 hN, b7, cw]))
  have d5 := wdbl ((kk (k := "CDELT1") (by decide)).trans (by rw [field_cdelt1 hN, b8, cw]))
  have d6 := wdbl ((kk (k := "CDELT2") (by decide)).trans (by rw [field_cdelt2 hN, b9, cw]))
  have d7 : readDbl f (writeHeader p m) "DATAMIN" = .ok (some (f.rd (sci 10 (m.datamin.getD p.least)))) := by
    unfold readDbl; rw [lookup_datamin p m hn]; rfl
  have d8 : readDbl f (writeHeader p m) "DATAMAX" = .ok (some (f.rd (sci 10 (m.datamax.getD p.greatest)))) := by
    unfold readDbl; rw [lookup_datamax p m hn]; rfl
  have d9 := readDbl_lk (f := f) ((kk (k := "SATURATE") (by decide)).trans (field_saturate hN))
  have x1 : readFlt f (writeHeader p m) "EXPTIME" = .ok (if 0 < m.exptime then f.rf (sci 6 m.exptime) else 0) := by
    unfold readFlt; rw [kk (by decide), field_exptime hN, a8]
    by_cases hx : 0 < m.exptime
    · rw [if_pos hx, if_pos hx]; rfl
    · rw [if_neg hx, if_neg hx]
  have x2 : readDbl f (writeHeader p m) "EQUINOX" = .ok (if m.hasWcs then some (f.rd (sci 10 m.equinox)) else none) := by
    unfold readDbl; rw [kk (by decide), field_equinox hN, a9, cw]
    cases m.hasWcs <;> rfl
  have y1 := comments_header p m hn
  have y2 := history_header p m hn
  have y3 := customs_header f p m hn
  unfold readHeader
  rw [x1, d7, d8, d9, d1, d2, d3, d4, d5, d6, x2, e1, e2, e3, e4, e5, e6, e7, e8, w1, w2, w3, y1, y2, y3]
  simp only [Res.ok_bind, Res.pure_eq]
  unfold returned
  congr 2
  · unfold completed
    by_cases hb : 0 < p.bitpix
    · simp only [hb, if_true, true_and]
      by_cases he : m.bunit = []
      · simp only [he, List.isEmpty_nil, if_true, storeStr_adu]
      · simp [he]
    · simp [hb]
  · unfold completed
    by_cases hb : 0 < p.bitpix
    · simp only [hb, if_true]
      cases m.saturate <;> rfl
    · simp [hb]
  · cases m.hasWcs <;> rfl
  · cases m.hasWcs
    · rfl
    · simp only [if_true, true_and]
      by_cases he : storeStr m.radesys = [] <;> simp [he]

/-! ### metadata within the documented limits -/

/-- Printable ASCII, without a trailing blank. -/
def Clean (s : Str) : Prop := (∀ c ∈ s, 32 ≤ c.toNat ∧ c.toNat ≤ 126) ∧ s.getLast? ≠ some ' '

/-- A string that a FITS card can hold. -/
def FitsValue (s : Str) : Prop := Clean s ∧ (s.map columns).sum ≤ 68

/-- A line of commentary. -/
def Line (s : Str) : Prop := Clean s ∧ s ≠ [] ∧ s.length ≤ 72

theorem map_printable {s : Str} (h : ∀ c ∈ s, 32 ≤ c.toNat ∧ c.toNat ≤ 126) : s.map printable = s := by
  conv_rhs => rw [← List.map_id s]
  refine List.map_congr_left fun c hc => ?_
  simp [printable, h c hc]

theorem stripR_clean {s : Str} (h : s.getLast? ≠ some ' ') : stripR s = s := by
  unfold stripR
  rw [List.rdropWhile_eq_self_iff]
  intro hs
  rw [List.getLast?_eq_some_getLast hs] at h
  simpa using h

theorem fit_all {n : ℕ} {s : Str} (h : (s.map columns).sum ≤ n) : fit n s = s := by
  induction s generalizing n with
  | nil => cases n <;> rfl
  | cons c s ih =>
    rw [List.map_cons, List.sum_cons] at h
    rw [fit, if_pos (by omega), ih (by omega)]

theorem storeStr_value {s : Str} (h : FitsValue s) : storeStr s = s := by
  unfold storeStr
  rw [fit_all h.2, map_printable h.1.1, stripR_clean h.1.2]

theorem textCards_line {s : Str} (h : Line s) : textCards s = [s] := by
  obtain ⟨hc, hs, hl⟩ := h
  unfold textCards
  have h1 : chunks s = [s] := by
    rw [chunks, dif_neg hs, List.take_of_length_le hl, List.drop_of_length_le hl, chunks, dif_pos rfl]
  rw [h1, List.map_singleton, map_printable hc.1, stripR_clean hc.2]
  simp [hs]

theorem lines_cards {l : List Str} (h : ∀ s ∈ l, Line s) : l.flatMap textCards = l := by
  induction l with
  | nil => rfl
  | cons s l ih =>
    rw [List.flatMap_cons, textCards_line (h s List.mem_cons_self), ih fun t ht => h t (List.mem_cons_of_mem _ ht)]; rfl

/-- A `double` with at most eleven figures, as most literals are. -/
def Short (f : Cfitsio) (v : ℚ) : Prop := ∃ q, Figures 11 q ∧ v = f.rd q

/-- **C129**: a `double` of at most eleven figures comes back exactly. -/
theorem C129_double {f : Cfitsio} (hf : IsDouble f.rd) {v : ℚ} (hv : Short f v) : f.rd (sci 10 v) = v := by
  obtain ⟨q, hq, rfl⟩ := hv
  rw [sci_double hf hq]

/-- **C129**: any other comes back within one part in ten billion. -/
theorem C129_double_error {f : Cfitsio} (hf : IsDouble f.rd) (v : ℚ) : |f.rd (sci 10 v) - v| ≤ |v| / 10 ^ 10 := by
  have h1 := sci_rel 10 v
  have h2 := hf (sci 10 v)
  have h3 : |sci 10 v| ≤ |v| + |sci 10 v - v| := by
    have := abs_sub_abs_le_abs_sub (sci 10 v) v
    linarith
  have h4 : |f.rd (sci 10 v) - v| ≤ |f.rd (sci 10 v) - sci 10 v| + |sci 10 v - v| := abs_sub_le _ _ _
  rw [le_div_iff₀ (by norm_num)] at h1 h2 ⊢
  norm_num at h1 h2 ⊢
  linarith [abs_nonneg v, abs_nonneg (sci 10 v - v), abs_nonneg (sci 10 v)]

/-- An exposure time: a `float` nearest to a decimal of at most six figures whose leading figure is below eight. -/
def ShortTime (f : Cfitsio) (v : ℚ) : Prop := ∃ q, Figures 6 q ∧ v = f.rf q ∧ |v| < 8 * 10 ^ Int.log 10 |v|

theorem rf_time {f : Cfitsio} (hf : IsFloat f.rf) {v : ℚ} (hv : ShortTime f v) : f.rf (sci 6 v) = v := by
  obtain ⟨q, hq, rfl, hl⟩ := hv
  have h1 := hf q
  rcases eq_or_ne (f.rf q) 0 with h0 | h0
  · have hq0 : q = 0 := by
      rw [h0, zero_sub, abs_neg] at h1
      rw [← abs_eq_zero]; linarith [abs_nonneg q]
    rw [h0, show sci 6 0 = 0 by simp [sci]]
    rw [hq0] at h0; exact h0
  set v := f.rf q
  have hc : |v - q| < 1 / 2 * 10 ^ (Int.log 10 |v| - (6 : ℕ)) := by
    have h2 : |q| ≤ |v| + |v - q| := by
      have := abs_sub_abs_le_abs_sub q v
      rw [abs_sub_comm] at this; linarith
    rw [zpow_sub₀ (by norm_num), zpow_natCast]
    have hp : (0 : ℚ) < 10 ^ Int.log 10 |v| := by positivity
    generalize (10 : ℚ) ^ Int.log 10 |v| = t at hp hl ⊢
    rw [le_div_iff₀ (by norm_num)] at h1
    norm_num at h1 ⊢
    linarith [abs_nonneg q, abs_nonneg (v - q)]
  rw [sci_core (figures_int h0 hq (by norm_num) (.inr ⟨le_rfl, hc⟩)) hc]

/-- Keywords within the limits: the value and the comment fit on the card, an integer is a 32 bit one. -/
def FitsKeyword (f : Cfitsio) (kw : Keyword) : Prop :=
  Clean kw.comment ∧ kw.comment.length ≤ room kw.value ∧
  match kw.value with
  | .str s => FitsValue s ∧ s ≠ []
  | .dbl v => f.rd v = v
  | .flt _ => False
  | .int i => -2147483648 ≤ i ∧ i < 2147483648
  | .log _ => True

/-- Metadata as documented: strings that fit, numbers of the types of the fields, lines of commentary, legal custom keywords. -/
structure Documented (f : Cfitsio) (m : Info) : Prop where
  named : Named m.custom
  strings : ∀ s ∈ [m.object, m.telescop, m.instrume, m.observer, m.dateObs, m.origin, m.filter, m.bunit, m.ctype1, m.ctype2,
    m.radesys], FitsValue s
  radesys : m.radesys ≠ []
  exptime : 0 ≤ m.exptime ∧ f.rf m.exptime = m.exptime
  doubles : ∀ v ∈ [m.datamin, m.datamax, m.saturate, m.crpix1, m.crpix2, m.crval1, m.crval2, m.cdelt1, m.cdelt2, some m.equinox],
    ∀ q, v = some q → f.rd q = q
  lines : ∀ s ∈ m.comments ++ m.history, Line s
  keywords : ∀ kw ∈ m.custom, FitsKeyword f kw

/-- What a user expects to read: what was written, completed by what the writer fills in. -/
def filled (p : Pixels) (m : Info) : Info :=
  { m with
    bunit := if 0 < p.bitpix ∧ m.bunit = [] then "adu".toList else m.bunit
    datamin := some (m.datamin.getD p.least)
    datamax := some (m.datamax.getD p.greatest)
    saturate := if 0 < p.bitpix then some (m.saturate.getD p.adcMax) else m.saturate }

/-- The property: metadata come back. -/
def C129_full : Prop :=
  ∀ (f : Cfitsio) (p : Pixels) (m : Info), IsDouble f.rd → IsFloat f.rf → Documented f m → p.blank = none →
    f.rd p.least = p.least → f.rd p.greatest = p.greatest → f.rd p.adcMax = p.adcMax →
    readHeader f (writeHeader p m) = .ok (filled p m)

/-- Every number has few figures. -/
def ShortNumbers (f : Cfitsio) (m : Info) : Prop :=
  ShortTime f m.exptime ∧
  (∀ v ∈ [m.datamin, m.datamax, m.saturate, m.crpix1, m.crpix2, m.crval1, m.crval2, m.cdelt1, m.cdelt2, some m.equinox],
    ∀ q, v = some q → Short f q) ∧
  ∀ kw ∈ m.custom, ∀ v, kw.value = .dbl v → Short f v

/-- A coordinate system is there (in the sense of `has_wcs`) or there is nothing of it. -/
def WcsWhole (m : Info) : Prop :=
  m.hasWcs ∨ (m.crpix2 = none ∧ m.crval2 = none ∧ m.cdelt2 = none ∧ m.ctype2 = [] ∧ m.equinox = 2000 ∧ m.radesys = "ICRS".toList)

theorem back_keyword {f : Cfitsio} (hf : IsDouble f.rd) {kw : Keyword} (h : FitsKeyword f kw)
    (hs : ∀ v, kw.value = .dbl v → Short f v) : backKw f kw = kw ∧ written kw = true := by
  obtain ⟨key, value, comment⟩ := kw
  obtain ⟨h1, h2, h3⟩ := h
  have hc : storeComment value comment = comment := by
    unfold storeComment
    rw [List.take_of_length_le h2, map_printable h1.1, stripR_clean h1.2]
  cases value with
  | str s =>
    refine ⟨?_, by simp [written, h3.2]⟩
    simp only [backKw, hc, backVal, storeStr_value h3.1]
  | dbl v =>
    refine ⟨?_, rfl⟩
    simp only [backKw, hc, backVal, C129_double hf (hs v rfl)]
  | flt v => exact h3.elim
  | int i =>
    refine ⟨?_, rfl⟩
    have : toInt i = i := by unfold toInt; simp only at h3; omega
    simp only [backKw, hc, backVal, this]
  | log b => exact ⟨by simp only [backKw, hc, backVal], rfl⟩

theorem back_keywords {f : Cfitsio} (hf : IsDouble f.rd) {l : List Keyword} (h : ∀ kw ∈ l, FitsKeyword f kw)
    (hs : ∀ kw ∈ l, ∀ v, kw.value = .dbl v → Short f v) : (l.filter written).map (backKw f) = l := by
  induction l with
  | nil => rfl
  | cons kw l ih =>
    have h1 := back_keyword hf (h kw List.mem_cons_self) (hs kw List.mem_cons_self)
    rw [List.filter_cons, if_pos h1.2, List.map_cons, h1.1,
      ih (fun x hx => h x (List.mem_cons_of_mem _ hx)) (fun x hx => hs x (List.mem_cons_of_mem _ hx))]

/-- **C129**, what is proved: documented metadata with short numbers and a whole coordinate system come back unchanged, except
that the two comments CFITSIO puts in every file are added to the comments, and a keyword `BLANK` to the custom
keywords if there are undefined pixels; the data range filled in has eleven figures. -/
theorem C129_partial {f : Cfitsio} {p : Pixels} {m : Info} (hd : IsDouble f.rd) (hfl : IsFloat f.rf) (h : Documented f m)
    (hs : ShortNumbers f m) (hw : WcsWhole m) :
    readHeader f (writeHeader p m) = .ok { filled p m with
      datamin := some (m.datamin.getD (f.rd (sci 10 p.least)))
      datamax := some (m.datamax.getD (f.rd (sci 10 p.greatest)))
      saturate := if 0 < p.bitpix then some (m.saturate.getD (f.rd (sci 10 p.adcMax))) else m.saturate
      comments := standardComments ++ m.comments
      custom := m.custom ++ blankKw p } := by
  rw [C129_read f p m h.named]
  have hstr := h.strings
  simp only [List.mem_cons, List.not_mem_nil, or_false, forall_eq_or_imp, forall_eq] at hstr
  obtain ⟨s1, s2, s3, s4, s5, s6, s7, s8, s9, s10, s11⟩ := hstr
  obtain ⟨t1, t2, t3⟩ := hs
  have hdbl : ∀ {o : Option ℚ}, o ∈ [m.datamin, m.datamax, m.saturate, m.crpix1, m.crpix2, m.crval1, m.crval2, m.cdelt1, m.cdelt2,
      some m.equinox] → o.map (fun v => f.rd (sci 10 v)) = o := by
    intro o ho
    cases e : o with
    | none => rfl
    | some q => rw [Option.map_some, C129_double hd (t2 o ho q e)]
  have heq : f.rd (sci 10 m.equinox) = m.equinox := C129_double hd (t2 (some m.equinox) (by simp) _ rfl)
  have hget : ∀ {o : Option ℚ} (d : ℚ), o ∈ [m.datamin, m.datamax, m.saturate, m.crpix1, m.crpix2, m.crval1, m.crval2, m.cdelt1,
      m.cdelt2, some m.equinox] → f.rd (sci 10 (o.getD d)) = o.getD (f.rd (sci 10 d)) := by
    intro o d ho
    cases e : o with
    | none => rfl
    | some q => exact C129_double hd (t2 o ho q e)
  have hex : (if 0 < m.exptime then f.rf (sci 6 m.exptime) else 0) = m.exptime := by
    split
    · exact rf_time hfl t1
    · exact le_antisymm h.exptime.1 (not_lt.1 ‹_›)
  have hwcs : ∀ {α : Type} (x d : α), (m.hasWcs = false → d = x) → (if m.hasWcs then x else d) = x := by
    intro α x d hx
    cases hb : m.hasWcs
    · exact hx hb
    · rfl
  have hw' : m.hasWcs = false → m.crpix1 = none ∧ m.crval1 = none ∧ m.cdelt1 = none ∧ m.ctype1 = [] := by
    intro hb
    simpa [Info.hasWcs, and_assoc] using hb
  have hw2 : m.hasWcs = false → m.crpix2 = none ∧ m.crval2 = none ∧ m.cdelt2 = none ∧ m.ctype2 = [] ∧ m.equinox = 2000 ∧
      m.radesys = "ICRS".toList := by
    intro hb
    rcases hw with hw | hw
    · rw [hb] at hw; simp at hw
    · exact hw
  unfold returned filled
  congr 1
  simp only [Info.mk.injEq]
  refine ⟨storeStr_value s1, storeStr_value s2, storeStr_value s3, storeStr_value s4, storeStr_value s5, storeStr_value s6, hex,
    storeStr_value s7, by rw [storeStr_value s8], by rw [hget _ (by simp)], by rw [hget _ (by simp)], ?_, ?_, ?_, ?_, ?_, ?_, ?_, ?_, ?_, ?_, ?_, ?_,
    ?_, ?_⟩
  · split
    · rw [Option.map_some, hget _ (by simp)]
    · exact hdbl (by simp)
  · rw [hdbl (by simp)]; exact hwcs _ _ fun hb => (hw' hb).1.symm
  · rw [hdbl (by simp)]; exact hwcs _ _ fun hb => (hw2 hb).1.symm
  · rw [hdbl (by simp)]; exact hwcs _ _ fun hb => (hw' hb).2.1.symm
  · rw [hdbl (by simp)]; exact hwcs _ _ fun hb => (hw2 hb).2.1.symm
  · rw [hdbl (by simp)]; exact hwcs _ _ fun hb => (hw' hb).2.2.1.symm
  · rw [hdbl (by simp)]; exact hwcs _ _ fun hb => (hw2 hb).2.2.1.symm
  · rw [storeStr_value s9]; exact hwcs _ _ fun hb => (hw' hb).2.2.2.symm
  · rw [storeStr_value s10]; exact hwcs _ _ fun hb => (hw2 hb).2.2.2.1.symm
  · rw [heq]; exact hwcs _ _ fun hb => (hw2 hb).2.2.2.2.1.symm
  · rw [storeStr_value s11]
    cases hb : m.hasWcs
    · simp [(hw2 hb).2.2.2.2.2]
    · simp [h.radesys]
  · rw [lines_cards fun s hs => h.lines s (List.mem_append_left _ hs)]
  · exact lines_cards fun s hs => h.lines s (List.mem_append_right _ hs)
  · rw [back_keywords hd h.keywords t3]

end Huira.ImageIO.FitsHeader
