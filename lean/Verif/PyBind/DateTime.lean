import Mathlib.Data.Real.Basic
import Mathlib.Tactic.Linarith
import Mathlib.Tactic.Ring
import Mathlib.Tactic.NormNum
import Mathlib.Tactic.IntervalCases
import Mathlib.Data.Set.Finite.Lemmas
import Mathlib.Order.Interval.Finset.Nat
import Mathlib.Order.Interval.Set.Defs
import Mathlib.Order.Interval.Finset.Defs
import Mathlib.Data.Fintype.Prod
/-!
# Python datetimes and times (C141)

Models the conversions between `datetime` objects and `Time` in `bindings/python/include/huira/core/time_py.ipp` (25-41 and
70-88), with `Time::Time(const std::string&)`, `Time::to_iso_8601` and `Time::to_utc_string`
(`include/huira_impl/core/time.ipp` 26-30, 241-268).

Environment (contracts)
* `datetime.isoformat` and `datetime.fromisoformat` are the functions of Python's standard library (`isoformat`,
  `fromIso` below, written from its documentation);
* SPICE (`Clock`): `str2et` reads a date text without zone as UTC, `timout` with the picture of `to_iso_8601` prints the
  millisecond of UTC nearest to the time.  Nothing is assumed about texts with a zone.

Texts are lists of characters.
-/

set_option linter.unusedSimpArgs false
set_option linter.unusedVariables false

namespace Huira.PyDate

/-! ## Python's `datetime` -/

/-- The date and the time of day of a `datetime` object. -/
@[ext]
structure Fields where
  year : ℕ
  month : ℕ
  day : ℕ
  hour : ℕ
  minute : ℕ
  second : ℕ
  micro : ℕ
deriving DecidableEq

/-- A `datetime` object: its fields and, when it is aware, the offset of its zone from UTC in microseconds. -/
structure DateTime where
  fields : Fields
  offset : Option ℤ

/-- Days of a month of the Gregorian calendar. -/
def daysIn (y m : ℕ) : ℕ :=
  if m = 2 then (if y % 4 = 0 ∧ (y % 100 ≠ 0 ∨ y % 400 = 0) then 29 else 28)
  else if m = 4 ∨ m = 6 ∨ m = 9 ∨ m = 11 then 30 else 31

/-- The fields a `datetime` object can have. -/
def Valid (f : Fields) : Prop :=
  (1 ≤ f.year ∧ f.year ≤ 9999) ∧ (1 ≤ f.month ∧ f.month ≤ 12) ∧ (1 ≤ f.day ∧ f.day ≤ daysIn f.year f.month) ∧
    f.hour < 24 ∧ f.minute < 60 ∧ f.second < 60 ∧ f.micro < 1000000

instance (f : Fields) : Decidable (Valid f) := by unfold Valid; infer_instance

/-- The `datetime` objects of Python: offsets are strictly less than a day. -/
def DateTime.Ok (d : DateTime) : Prop := Valid d.fields ∧ ∀ o, d.offset = some o → o.natAbs < 86400000000

/-- The character of a decimal digit. -/
def chr (d : ℕ) : Char := Char.ofNat (48 + d)

/-- `n` decimal digits, zero padded. -/
def digits : ℕ → ℕ → List Char
  | 0, _ => []
  | n + 1, v => digits n (v / 10) ++ [chr (v % 10)]

/-- `YYYY-MM-DDTHH:MM:SS`. -/
def upToSecond (f : Fields) : List Char :=
  digits 4 f.year ++ '-' :: digits 2 f.month ++ '-' :: digits 2 f.day ++ 'T' :: digits 2 f.hour ++
    ':' :: digits 2 f.minute ++ ':' :: digits 2 f.second

/-- The text of the fields: the fraction of the second is printed, with six digits, unless it is zero. -/
def plain (f : Fields) : List Char :=
  upToSecond f ++ if f.micro = 0 then [] else '.' :: digits 6 f.micro

/-- The text of the offset: `+HH:MM`, with seconds and microseconds only when they are not zero. -/
def zone : Option ℤ → List Char
  | none => []
  | some o =>
    let a := o.natAbs
    let us := a % 1000000
    let s := a / 1000000
    (if o < 0 then '-' else '+') :: digits 2 (s / 3600) ++ ':' :: digits 2 (s / 60 % 60) ++
      if s % 60 = 0 ∧ us = 0 then []
      else ':' :: digits 2 (s % 60) ++ if us = 0 then [] else '.' :: digits 6 us

/-- `datetime.isoformat()`. -/
def isoformat (d : DateTime) : List Char := plain d.fields ++ zone d.offset

/-- The number a text of digits stands for. -/
def readNat (l : List Char) : Option ℕ :=
  if l = [] then none
  else l.foldl (fun acc c => acc.bind fun n => if 48 ≤ c.toNat ∧ c.toNat ≤ 57 then some (10 * n + (c.toNat - 48)) else none) (some 0)

/-- `datetime.fromisoformat` on texts with a fraction of three digits; anything else raises here. -/
def fromIso (l : List Char) : Option Fields :=
  if l.length = 23 ∧ (l.drop 4).take 1 = ['-'] ∧ (l.drop 7).take 1 = ['-'] ∧ (l.drop 10).take 1 = ['T'] ∧
      (l.drop 13).take 1 = [':'] ∧ (l.drop 16).take 1 = [':'] ∧ (l.drop 19).take 1 = ['.'] then do
    let y ← readNat (l.take 4)
    let mo ← readNat ((l.drop 5).take 2)
    let d ← readNat ((l.drop 8).take 2)
    let h ← readNat ((l.drop 11).take 2)
    let mi ← readNat ((l.drop 14).take 2)
    let s ← readNat ((l.drop 17).take 2)
    let ms ← readNat ((l.drop 20).take 3)
    let f : Fields := ⟨y, mo, d, h, mi, s, 1000 * ms⟩
    if Valid f then some f else none
  else none

/-! ## SPICE -/

/-- A text printed by `timout` for the picture of `to_iso_8601` (`YYYY-MM-DDTHR:MN:SC.###`). -/
def stampText (f : Fields) : List Char := upToSecond f ++ '.' :: digits 3 (f.micro / 1000)

/-- Fields that can be printed with milliseconds; the second is 60 inside a leap second. -/
def Printable (f : Fields) : Prop :=
  (1 ≤ f.year ∧ f.year ≤ 9999) ∧ (1 ≤ f.month ∧ f.month ≤ 12) ∧ (1 ≤ f.day ∧ f.day ≤ daysIn f.year f.month) ∧
    f.hour < 24 ∧ f.minute < 60 ∧ f.second ≤ 60 ∧ f.micro < 1000000 ∧ f.micro % 1000 = 0

/-- What is used of SPICE: UTC, the reading of texts, the printing of times. -/
structure Clock where
  /-- the moments of UTC: the fields `f`, when that second exists, are the ephemeris time `utc f` -/
  Moment : Fields → Prop
  utc : Fields → ℝ
  /-- every second but the leap seconds is the same in every calendar -/
  moment_of_valid : ∀ f, Valid f → Moment f
  utc_inj : ∀ f g, Moment f → Moment g → utc f = utc g → f = g
  /-- `str2et` -/
  str2et : List Char → Option ℝ
  str2et_plain : ∀ f, Valid f → str2et (plain f) = some (utc f)
  /-- what `timout` prints for a time of the years 1 to 9999 -/
  Era : ℝ → Prop
  era_of_valid : ∀ f, Valid f → Era (utc f)
  stamp : ℝ → Fields
  stamp_ok : ∀ t, Era t → Printable (stamp t) ∧ Moment (stamp t)
  stamp_nearest : ∀ t, Era t → ∀ g, Printable g → Moment g → |utc (stamp t) - t| ≤ |utc g - t|

/-! ## The code -/

/-- `Time(datetime)` (time_py.ipp 32-37): the text given to SPICE. -/
def strip (l : List Char) : List Char :=
  if 6 ≤ l.length ∧ l.drop (l.length - 6) = ['+', '0', '0', ':', '0', '0'] then l.take (l.length - 6) else l

/-- `Time(datetime)` (time_py.ipp 26-39, time.ipp 26-30); none: an exception. -/
def ofDateTime (c : Clock) (d : DateTime) : Option ℝ := c.str2et (strip (isoformat d))

/-- `Time::to_iso_8601` (time.ipp 241-244). -/
def toIso (c : Clock) (t : ℝ) : List Char := stampText (c.stamp t) ++ ['Z']

/-- `Time.to_datetime` (time_py.ipp 70-88): the trailing `Z` goes, the rest is read as a naive `datetime`, which gets the zone
UTC; none: an exception. -/
def toDateTime (c : Clock) (t : ℝ) : Option DateTime :=
  let iso := toIso c t
  let iso := if iso ≠ [] ∧ iso.getLast? = some 'Z' then iso.dropLast else iso
  (fromIso iso).map fun f => ⟨f, some 0⟩

/-- The picture `Time::to_utc_string` gives to SPICE (time.ipp 261-268). -/
def picture (format : List Char) : List Char :=
  if "::UTC".toList <:+: format then format else format ++ " ::UTC".toList

/-! ## Digits -/

theorem length_digits (n v : ℕ) : (digits n v).length = n := by
  induction n generalizing v with
  | zero => rfl
  | succ n ih => simp [digits, ih]

theorem toNat_chr {d : ℕ} (h : d < 10) : (chr d).toNat = 48 + d := by
  unfold chr; interval_cases d <;> decide

theorem chr_inj {a b : ℕ} (ha : a < 10) (hb : b < 10) (h : chr a = chr b) : a = b := by
  have := congrArg Char.toNat h
  rw [toNat_chr ha, toNat_chr hb] at this
  omega

theorem digits_inj (n : ℕ) : ∀ a b : ℕ, a < 10 ^ n → b < 10 ^ n → digits n a = digits n b → a = b := by
  induction n with
  | zero => intro a b ha hb _; simp at ha hb; omega
  | succ n ih =>
    intro a b ha hb h
    simp only [digits] at h
    obtain ⟨h1, h2⟩ := List.append_inj h (by simp [length_digits])
    have e1 := ih (a / 10) (b / 10) (by rw [pow_succ] at ha; omega) (by rw [pow_succ] at hb; omega) h1
    have e2 := chr_inj (Nat.mod_lt a (by norm_num)) (Nat.mod_lt b (by norm_num)) (by simpa using h2)
    omega

theorem digit_of_mem (n : ℕ) : ∀ (v : ℕ) (c : Char), c ∈ digits n v → 48 ≤ c.toNat ∧ c.toNat ≤ 57 := by
  induction n with
  | zero => intro v c h; simp [digits] at h
  | succ n ih =>
    intro v c h
    simp only [digits, List.mem_append, List.mem_singleton] at h
    rcases h with h | rfl
    · exact ih _ _ h
    · rw [toNat_chr (Nat.mod_lt _ (by norm_num))]; omega

theorem readNat_digits (n v : ℕ) (hn : 0 < n) (h : v < 10 ^ n) : readNat (digits n v) = some v := by
  have hne : digits n v ≠ [] := by
    intro e; have := length_digits n v; rw [e] at this; simp at this; omega
  unfold readNat
  rw [if_neg hne]
  clear hn hne
  induction n generalizing v with
  | zero => simp at h; simp [digits, h]
  | succ n ih =>
    simp only [digits, List.foldl_append, List.foldl_cons, List.foldl_nil]
    rw [ih (v / 10) (by rw [pow_succ] at h; omega)]
    have ht := toNat_chr (Nat.mod_lt v (show 10 > 0 by norm_num))
    simp only [Option.bind_some, ht]
    rw [if_pos (by omega)]
    congr 1; omega

/-! ## Texts -/

theorem strip_append (a b : List Char) (hb : b.length = 6) :
    strip (a ++ b) = if b = ['+', '0', '0', ':', '0', '0'] then a else a ++ b := by
  unfold strip
  have h1 : (a ++ b).length - 6 = a.length := by simp [hb]
  rw [h1, List.drop_left, List.take_left]
  by_cases h : b = ['+', '0', '0', ':', '0', '0']
  · rw [if_pos ⟨by simp [hb], h⟩, if_pos h]
  · rw [if_neg (fun h' => h h'.2), if_neg h]

theorem strip_append_ne (a b : List Char) (hb : b.length = 6) (hh : b.head? ≠ some '+') : strip (a ++ b) = a ++ b := by
  rw [strip_append a b hb, if_neg]
  rintro rfl; simp at hh

theorem head_digits (n v : ℕ) (hn : 0 < n) : (digits n v).head? ≠ some '+' := by
  intro h
  have hm : '+' ∈ digits n v := List.mem_of_mem_head? (by simpa using h)
  have := digit_of_mem n v '+' hm
  revert this; decide

/-- The text of a naive object is left alone. -/
theorem strip_plain (f : Fields) : strip (plain f) = plain f := by
  by_cases h : f.micro = 0
  · have : plain f = (digits 4 f.year ++ '-' :: digits 2 f.month ++ '-' :: digits 2 f.day ++ 'T' :: digits 2 f.hour) ++
        (':' :: digits 2 f.minute ++ ':' :: digits 2 f.second) := by
      simp [plain, upToSecond, h]
    rw [this]
    exact strip_append_ne _ _ (by simp [length_digits]) (by simp)
  · have : plain f = (upToSecond f ++ ['.']) ++ digits 6 f.micro := by simp [plain, h]
    rw [this]
    exact strip_append_ne _ _ (length_digits _ _) (head_digits _ _ (by norm_num))

theorem zone_zero : zone (some 0) = ['+', '0', '0', ':', '0', '0'] := by decide

/-- The zone is removed exactly when it is UTC. -/
theorem strip_zone (a : List Char) (o : ℤ) (ho : o.natAbs < 86400000000) :
    strip (a ++ zone (some o)) = if o = 0 then a else a ++ zone (some o) := by
  by_cases h0 : o = 0
  · subst h0
    rw [zone_zero, strip_append _ _ rfl]; simp
  rw [if_neg h0]
  simp only [zone]
  by_cases h1 : o.natAbs / 1000000 % 60 = 0 ∧ o.natAbs % 1000000 = 0
  · rw [if_pos h1, List.append_nil, strip_append _ _ (by simp [length_digits]), if_neg]
    intro h
    rw [List.cons_append, List.cons_eq_cons] at h
    obtain ⟨hs, h⟩ := h
    have hd : digits 2 (o.natAbs / 1000000 / 3600) ++ ':' :: digits 2 (o.natAbs / 1000000 / 60 % 60) =
        digits 2 0 ++ ':' :: digits 2 0 := h.trans (by decide)
    obtain ⟨e1, e2⟩ := List.append_inj hd (by simp [length_digits])
    have e3 := (List.cons_eq_cons.mp e2).2
    have f1 := digits_inj 2 _ _ (by omega) (by norm_num) e1
    have f2 := digits_inj 2 _ _ (by omega) (by norm_num) e3
    have : o.natAbs = 0 := by omega
    exact h0 (Int.natAbs_eq_zero.mp this)
  · rw [if_neg h1]
    by_cases h2 : o.natAbs % 1000000 = 0
    · rw [if_pos h2, List.append_nil]
      have : ∀ s : Char, a ++ (s :: digits 2 (o.natAbs / 1000000 / 3600) ++ ':' :: digits 2 (o.natAbs / 1000000 / 60 % 60) ++
          ':' :: digits 2 (o.natAbs / 1000000 % 60)) = (a ++ s :: digits 2 (o.natAbs / 1000000 / 3600)) ++
          (':' :: digits 2 (o.natAbs / 1000000 / 60 % 60) ++ ':' :: digits 2 (o.natAbs / 1000000 % 60)) := by
        intro s; simp
      rw [this]
      exact strip_append_ne _ _ (by simp [length_digits]) (by simp)
    · rw [if_neg h2]
      have : ∀ s : Char, a ++ (s :: digits 2 (o.natAbs / 1000000 / 3600) ++ ':' :: digits 2 (o.natAbs / 1000000 / 60 % 60) ++
          (':' :: digits 2 (o.natAbs / 1000000 % 60) ++ '.' :: digits 6 (o.natAbs % 1000000))) =
          (a ++ s :: digits 2 (o.natAbs / 1000000 / 3600) ++ ':' :: digits 2 (o.natAbs / 1000000 / 60 % 60) ++
          ':' :: digits 2 (o.natAbs / 1000000 % 60) ++ ['.']) ++ digits 6 (o.natAbs % 1000000) := by
        intro s; simp
      rw [this]
      exact strip_append_ne _ _ (length_digits _ _) (head_digits _ _ (by norm_num))

theorem stamp_back (f : Fields) (h : Printable f) :
    fromIso (stampText f) = if f.second < 60 then some f else none := by
  obtain ⟨⟨hy1, hy2⟩, ⟨hm1, hm2⟩, ⟨hd1, hd2⟩, hh, hmi, hs, hu, hu'⟩ := h
  have hd3 : f.day < 100 := by
    have : daysIn f.year f.month ≤ 31 := by unfold daysIn; split_ifs <;> omega
    omega
  have l4 := length_digits 4 f.year
  have l2 := length_digits 2
  have l3 := length_digits 3
  have e : stampText f = digits 4 f.year ++ ('-' :: (digits 2 f.month ++ ('-' :: (digits 2 f.day ++ ('T' :: (digits 2 f.hour ++
      (':' :: (digits 2 f.minute ++ (':' :: (digits 2 f.second ++ ('.' :: digits 3 (f.micro / 1000)))))))))))) := by
    simp [stampText, upToSecond]
  -- pieces of the text
  have key : ∀ (y4 m2 d2 h2 n2 s2 u3 : List Char), y4.length = 4 → m2.length = 2 → d2.length = 2 → h2.length = 2 → n2.length = 2 →
      s2.length = 2 → u3.length = 3 → ∀ l, l = y4 ++ ('-' :: (m2 ++ ('-' :: (d2 ++ ('T' :: (h2 ++ (':' :: (n2 ++ (':' :: (s2 ++
        ('.' :: u3)))))))))))  →
      l.length = 23 ∧ l.take 4 = y4 ∧ (l.drop 5).take 2 = m2 ∧ (l.drop 8).take 2 = d2 ∧ (l.drop 11).take 2 = h2 ∧
      (l.drop 14).take 2 = n2 ∧ (l.drop 17).take 2 = s2 ∧ (l.drop 20).take 3 = u3 ∧ (l.drop 4).take 1 = ['-'] ∧
      (l.drop 7).take 1 = ['-'] ∧ (l.drop 10).take 1 = ['T'] ∧ (l.drop 13).take 1 = [':'] ∧ (l.drop 16).take 1 = [':'] ∧
      (l.drop 19).take 1 = ['.'] := by
    intro y4 m2 d2 h2 n2 s2 u3 hy hm hd hh hn hs hu l hl
    obtain ⟨a1, a2, a3, a4, rfl⟩ := List.length_eq_four.mp hy
    obtain ⟨b1, b2, rfl⟩ := List.length_eq_two.mp hm
    obtain ⟨c1, c2, rfl⟩ := List.length_eq_two.mp hd
    obtain ⟨d1, d2, rfl⟩ := List.length_eq_two.mp hh
    obtain ⟨e1, e2, rfl⟩ := List.length_eq_two.mp hn
    obtain ⟨f1, f2, rfl⟩ := List.length_eq_two.mp hs
    obtain ⟨g1, g2, g3, rfl⟩ := List.length_eq_three.mp hu
    subst hl
    simp
  obtain ⟨k1, k2, k3, k4, k5, k6, k7, k8, k9, k10, k11, k12, k13, k14⟩ :=
    key _ _ _ _ _ _ _ l4 (l2 _) (l2 _) (l2 _) (l2 _) (l2 _) (l3 _) (stampText f) e
  unfold fromIso
  rw [if_pos ⟨k1, k9, k10, k11, k12, k13, k14⟩, k2, k3, k4, k5, k6, k7, k8,
    readNat_digits 4 _ (by norm_num) (by omega), readNat_digits 2 _ (by norm_num) (by omega),
    readNat_digits 2 _ (by norm_num) (by omega), readNat_digits 2 _ (by norm_num) (by omega),
    readNat_digits 2 _ (by norm_num) (by omega), readNat_digits 2 _ (by norm_num) (by omega),
    readNat_digits 3 _ (by norm_num) (by omega)]
  have hf : (⟨f.year, f.month, f.day, f.hour, f.minute, f.second, 1000 * (f.micro / 1000)⟩ : Fields) = f := by
    ext <;> simp <;> omega
  simp only [Option.bind_eq_bind, Option.bind_some, hf]
  by_cases h60 : f.second < 60
  · rw [if_pos h60, if_pos]
    exact ⟨⟨hy1, hy2⟩, ⟨hm1, hm2⟩, ⟨hd1, hd2⟩, hh, hmi, h60, hu⟩
  · rw [if_neg h60, if_neg]
    exact fun hv => h60 hv.2.2.2.2.2.1

theorem toDateTime_eq (c : Clock) (t : ℝ) : toDateTime c t = (fromIso (stampText (c.stamp t))).map fun f => ⟨f, some 0⟩ := by
  simp [toDateTime, toIso]

/-! ## Specification -/

/-- Number of the day in the calendar. -/
def dayNumber (f : Fields) : ℤ :=
  365 * (f.year - 1) + (f.year - 1) / 4 - (f.year - 1) / 100 + (f.year - 1) / 400 +
    (((List.range (f.month - 1)).map fun m => daysIn f.year (m + 1)).sum : ℕ) + f.day

/-- The reading of the clock, in microseconds. -/
def civil (f : Fields) : ℤ :=
  (((dayNumber f * 24 + f.hour) * 60 + f.minute) * 60 + f.second) * 1000000 + f.micro

/-- The reading of a clock of UTC at the moment of a `datetime` object; naive objects are in UTC. -/
def DateTime.utcReading (d : DateTime) : ℤ := civil d.fields - d.offset.getD 0

/-- The time `t` is the moment the `datetime` object stands for. -/
def Denotes (c : Clock) (d : DateTime) (t : ℝ) : Prop :=
  ∃ g, Valid g ∧ civil g = d.utcReading ∧ t = c.utc g

/-- The full property: a `datetime` object becomes the moment it stands for or raises, and what comes back from the time is the
same moment, in UTC. -/
def C141_full : Prop := ∀ (c : Clock) (d : DateTime), d.Ok → ∀ t, ofDateTime c d = some t →
  Denotes c d t ∧ ∃ d', toDateTime c t = some d' ∧ d'.offset = some 0 ∧ d'.utcReading = d.utcReading

/-! ## Theorems -/

/-- The text given to SPICE. -/
theorem sent (d : DateTime) (hd : d.Ok) :
    strip (isoformat d) = if d.offset = none ∨ d.offset = some 0 then plain d.fields else isoformat d := by
  obtain ⟨f, o⟩ := d
  cases o with
  | none => simp [isoformat, zone, strip_plain]
  | some o =>
    simp only [isoformat]
    rw [strip_zone _ o (hd.2 o rfl)]
    by_cases h : o = 0 <;> simp [h]

/-- C141: a naive object and one in UTC with the same fields become the same time, the moment they stand for. -/
theorem C141_utc (c : Clock) (d : DateTime) (hd : d.Ok) (h : d.offset = none ∨ d.offset = some 0) :
    ofDateTime c d = some (c.utc d.fields) ∧ Denotes c d (c.utc d.fields) ∧
    ofDateTime c ⟨d.fields, none⟩ = ofDateTime c ⟨d.fields, some 0⟩ := by
  have key : ∀ d : DateTime, d.Ok → (d.offset = none ∨ d.offset = some 0) → ofDateTime c d = some (c.utc d.fields) := by
    intro d hd h
    unfold ofDateTime
    rw [sent d hd, if_pos h, c.str2et_plain _ hd.1]
  refine ⟨key d hd h, ⟨d.fields, hd.1, ?_, rfl⟩, ?_⟩
  · rcases h with h | h <;> simp [DateTime.utcReading, h]
  · rw [key ⟨d.fields, none⟩ ⟨hd.1, by simp⟩ (Or.inl rfl), key ⟨d.fields, some 0⟩ ⟨hd.1, by simp⟩ (Or.inr rfl)]

/-- C141 (partial): the offset of an object in another zone is not applied; the whole text of the object, zone included, goes to
SPICE, so the property rests on what SPICE makes of such texts. -/
theorem C141_zone_partial (c : Clock) :
    (∀ d : DateTime, d.Ok → d.offset ≠ none → d.offset ≠ some 0 → ofDateTime c d = c.str2et (plain d.fields ++ zone d.offset)) ∧
    ((∀ d : DateTime, d.Ok → ∀ t, ofDateTime c d = some t → Denotes c d t) ↔
      ∀ (f : Fields) (o : ℤ), Valid f → o ≠ 0 → o.natAbs < 86400000000 →
        ∀ t, c.str2et (plain f ++ zone (some o)) = some t → Denotes c ⟨f, some o⟩ t) := by
  have h1 : ∀ d : DateTime, d.Ok → d.offset ≠ none → d.offset ≠ some 0 →
      ofDateTime c d = c.str2et (plain d.fields ++ zone d.offset) := by
    intro d hd h1 h2
    unfold ofDateTime
    rw [sent d hd, if_neg (by simp [h1, h2])]; rfl
  refine ⟨h1, ?_, ?_⟩
  · intro H f o hf ho hb t ht
    apply H ⟨f, some o⟩ ⟨hf, by rintro _ ⟨⟩; exact hb⟩ t
    rw [h1 ⟨f, some o⟩ ⟨hf, by rintro _ ⟨⟩; exact hb⟩ (by simp) (by simpa using ho)]
    exact ht
  · intro H d hd t ht
    by_cases h : d.offset = none ∨ d.offset = some 0
    · have := C141_utc c d hd h
      rw [this.1] at ht
      cases ht
      exact this.2.1
    · push Not at h
      obtain ⟨f, o⟩ := d
      cases o with
      | none => simp at h
      | some o =>
        rw [h1 _ hd h.1 h.2] at ht
        exact H f o hd.1 (by simpa using h.2) (hd.2 o rfl) t ht

/-- C141: what a time becomes: an object in UTC with the millisecond nearest to the time; inside a leap second, an exception. -/
theorem C141_back (c : Clock) (t : ℝ) (ht : c.Era t) :
    (toDateTime c t = none ↔ (c.stamp t).second = 60) ∧
    ∀ d, toDateTime c t = some d → d.Ok ∧ d.offset = some 0 ∧ d.fields.micro % 1000 = 0 ∧
      ofDateTime c d = some (c.utc d.fields) ∧
      ∀ g, Valid g → g.micro % 1000 = 0 → |c.utc d.fields - t| ≤ |c.utc g - t| := by
  have hp := (c.stamp_ok t ht).1
  have hs := hp.2.2.2.2.2.1
  rw [toDateTime_eq, stamp_back _ hp]
  refine ⟨?_, ?_⟩
  · by_cases h : (c.stamp t).second < 60
    · simp [h]; omega
    · simp [h]; omega
  · intro d
    by_cases h : (c.stamp t).second < 60
    · rw [if_pos h]
      intro e
      simp only [Option.map_some, Option.some.injEq] at e
      subst e
      have hv : Valid (c.stamp t) := ⟨hp.1, hp.2.1, hp.2.2.1, hp.2.2.2.1, hp.2.2.2.2.1, h, hp.2.2.2.2.2.2.1⟩
      refine ⟨⟨hv, by simp⟩, rfl, hp.2.2.2.2.2.2.2, (C141_utc c _ ⟨hv, by simp⟩ (Or.inr rfl)).1, ?_⟩
      intro g hg hm
      exact c.stamp_nearest t ht g ⟨hg.1, hg.2.1, hg.2.2.1, hg.2.2.2.1, hg.2.2.2.2.1, by have := hg.2.2.2.2.2.1; omega,
        hg.2.2.2.2.2.2, hm⟩ (c.moment_of_valid g hg)
    · rw [if_neg h]; simp

/-- The millisecond printed for the moment of fields with whole milliseconds. -/
theorem stamp_self (c : Clock) (f : Fields) (hf : Valid f) (hm : f.micro % 1000 = 0) : c.stamp (c.utc f) = f := by
  have he := c.era_of_valid f hf
  have h := c.stamp_nearest (c.utc f) he f ⟨hf.1, hf.2.1, hf.2.2.1, hf.2.2.2.1, hf.2.2.2.2.1, by have := hf.2.2.2.2.2.1; omega,
        hf.2.2.2.2.2.2, hm⟩ (c.moment_of_valid f hf)
  rw [sub_self, abs_zero] at h
  have h0 := abs_eq_zero.mp (le_antisymm h (abs_nonneg _))
  exact c.utc_inj _ _ (c.stamp_ok _ he).2 (c.moment_of_valid f hf) (by linarith)

/-- C141 (partial): an object in UTC, or a naive one, comes back with the same fields, in UTC, exactly when it has no
microseconds beyond its milliseconds. -/
theorem C141_round_trip_partial (c : Clock) (d : DateTime) (hd : d.Ok) (h : d.offset = none ∨ d.offset = some 0) :
    ((ofDateTime c d).bind (toDateTime c) = some ⟨d.fields, some 0⟩ ↔ d.fields.micro % 1000 = 0) := by
  rw [(C141_utc c d hd h).1, Option.bind_some]
  constructor
  · intro e
    exact ((C141_back c _ (c.era_of_valid _ hd.1)).2 _ e).2.2.1
  · intro hm
    rw [toDateTime_eq, stamp_self c _ hd.1 hm, stamp_back _ ⟨hd.1.1, hd.1.2.1, hd.1.2.2.1, hd.1.2.2.2.1, hd.1.2.2.2.2.1,
      by have := hd.1.2.2.2.2.2.1; omega, hd.1.2.2.2.2.2.2, hm⟩, if_pos hd.1.2.2.2.2.2.1]
    rfl

/-- C141: once through a `datetime` object, a time does not change any more. -/
theorem C141_settles (c : Clock) (t : ℝ) (ht : c.Era t) (d : DateTime) (h : toDateTime c t = some d) :
    (ofDateTime c d).bind (toDateTime c) = some d := by
  obtain ⟨hd, ho, hm, _, _⟩ := (C141_back c t ht).2 d h
  rw [(C141_round_trip_partial c d hd (Or.inr ho)).mpr hm]
  obtain ⟨f, o⟩ := d
  simp only at ho
  rw [ho]

/-- C141: the picture given to SPICE by `to_utc_string` asks for UTC, and is the given one when that asks for UTC itself. -/
theorem C141_picture (format : List Char) :
    "::UTC".toList <:+: picture format ∧ format <+: picture format ∧ ("::UTC".toList <:+: format → picture format = format) := by
  unfold picture
  split_ifs with h
  · exact ⟨h, List.prefix_rfl, fun _ => rfl⟩
  · refine ⟨⟨format ++ [' '], [], ?_⟩, List.prefix_append _ _, fun h' => absurd h' h⟩
    simp

/-! ## Violations and a concrete clock -/

/-- An object with a microsecond does not come back, whatever the clock. -/
theorem C141_violated_micro (c : Clock) (d : DateTime) (hd : d.Ok) (h : d.offset = none ∨ d.offset = some 0)
    (hm : d.fields.micro % 1000 ≠ 0) :
    ofDateTime c d = some (c.utc d.fields) ∧ ∀ d', toDateTime c (c.utc d.fields) = some d' → d'.utcReading ≠ d.utcReading := by
  refine ⟨(C141_utc c d hd h).1, ?_⟩
  intro d' h' e
  obtain ⟨_, ho, hm', _⟩ := (C141_back c _ (c.era_of_valid _ hd.1)).2 d' h'
  have e1 : d.offset.getD 0 = 0 := by rcases h with h | h <;> simp [h]
  simp only [DateTime.utcReading, ho, e1, Option.getD_some, sub_zero, civil] at e
  omega

/-- The number of a microsecond in a calendar of months of 32 days and minutes of 61 seconds. -/
def code (f : Fields) : ℕ :=
  f.micro + 1000000 * (f.second + 61 * (f.minute + 60 * (f.hour + 24 * (f.day + 32 * (f.month + 13 * f.year)))))

/-- Fields of that calendar. -/
def Small (f : Fields) : Prop :=
  f.year ≤ 9999 ∧ f.month ≤ 12 ∧ f.day ≤ 31 ∧ f.hour < 24 ∧ f.minute < 60 ∧ f.second ≤ 60 ∧ f.micro < 1000000

theorem day_le (y m : ℕ) : daysIn y m ≤ 31 := by unfold daysIn; split_ifs <;> omega

theorem small_of_valid {f : Fields} (h : Valid f) : Small f := by
  obtain ⟨h1, h2, h3, h4, h5, h6, h7⟩ := h
  have := day_le f.year f.month
  exact ⟨h1.2, h2.2, by omega, h4, h5, by omega, h7⟩

theorem small_of_printable {f : Fields} (h : Printable f) : Small f := by
  obtain ⟨h1, h2, h3, h4, h5, h6, h7, _⟩ := h
  have := day_le f.year f.month
  exact ⟨h1.2, h2.2, by omega, h4, h5, by omega, h7⟩

theorem code_inj {f g : Fields} (hf : Small f) (hg : Small g) (h : code f = code g) : f = g := by
  obtain ⟨a1, a2, a3, a4, a5, a6, a7⟩ := hf
  obtain ⟨b1, b2, b3, b4, b5, b6, b7⟩ := hg
  unfold code at h
  have e7 : f.micro = g.micro := by omega
  have e6 : f.second = g.second := by omega
  have e5 : f.minute = g.minute := by omega
  have e4 : f.hour = g.hour := by omega
  have e3 : f.day = g.day := by omega
  have e2 : f.month = g.month := by omega
  have e1 : f.year = g.year := by omega
  ext <;> assumption

theorem plain_inj {f g : Fields} (hf : Small f) (hg : Small g) (h : plain f = plain g) : f = g := by
  obtain ⟨a1, a2, a3, a4, a5, a6, a7⟩ := hf
  obtain ⟨b1, b2, b3, b4, b5, b6, b7⟩ := hg
  have hl : ∀ x : Fields, (upToSecond x).length = 19 := by intro x; simp [upToSecond, length_digits]
  obtain ⟨h1, h2⟩ := List.append_inj h (by rw [hl, hl])
  simp only [upToSecond, List.append_assoc, List.cons_append] at h1
  obtain ⟨e1, h1⟩ := List.append_inj h1 (by simp [length_digits])
  obtain ⟨e2, h1⟩ := List.append_inj (List.cons_eq_cons.mp h1).2 (by simp [length_digits])
  obtain ⟨e3, h1⟩ := List.append_inj (List.cons_eq_cons.mp h1).2 (by simp [length_digits])
  obtain ⟨e4, h1⟩ := List.append_inj (List.cons_eq_cons.mp h1).2 (by simp [length_digits])
  obtain ⟨e5, h1⟩ := List.append_inj (List.cons_eq_cons.mp h1).2 (by simp [length_digits])
  have e6 := (List.cons_eq_cons.mp h1).2
  have e7 : f.micro = g.micro := by
    by_cases hf0 : f.micro = 0
    · by_cases hg0 : g.micro = 0
      · omega
      · rw [if_pos hf0, if_neg hg0] at h2; simp at h2
    · by_cases hg0 : g.micro = 0
      · rw [if_pos hg0, if_neg hf0] at h2; simp at h2
      · rw [if_neg hg0, if_neg hf0] at h2
        exact digits_inj 6 _ _ (by omega) (by omega) (List.cons_eq_cons.mp h2).2
  ext
  · exact digits_inj 4 _ _ (by omega) (by omega) e1
  · exact digits_inj 2 _ _ (by omega) (by omega) e2
  · exact digits_inj 2 _ _ (by omega) (by omega) e3
  · exact digits_inj 2 _ _ (by omega) (by omega) e4
  · exact digits_inj 2 _ _ (by omega) (by omega) e5
  · exact digits_inj 2 _ _ (by omega) (by omega) e6
  · exact e7

theorem exists_nearest (t : ℝ) : ∃ f, Printable f ∧ ∀ g, Printable g → |(code f : ℝ) - t| ≤ |(code g : ℝ) - t| := by
  have hfin : Set.Finite {f : Fields | Printable f} := by
    apply Set.Finite.of_injOn (f := code) (t := Set.Iio (code ⟨10000, 0, 0, 0, 0, 0, 0⟩))
    · intro f hf
      have := small_of_printable hf
      obtain ⟨a1, a2, a3, a4, a5, a6, a7⟩ := this
      simp only [Set.mem_Iio, code]
      omega
    · intro f hf g hg h
      exact code_inj (small_of_printable hf) (small_of_printable hg) h
    · exact Set.finite_Iio _
  obtain ⟨f, hf, hmin⟩ := Set.exists_min_image _ (fun f : Fields => |(code f : ℝ) - t|) hfin
    ⟨⟨2000, 1, 1, 12, 0, 0, 0⟩, by unfold Printable daysIn; simp⟩
  exact ⟨f, hf, fun g hg => hmin g hg⟩

open Classical in
/-- A clock that meets the contract: a calendar of its own, and no text with a zone can be read. -/
noncomputable def exClock : Clock where
  Moment := Small
  utc f := code f
  moment_of_valid f hf := small_of_valid hf
  utc_inj f g hf hg h := code_inj hf hg (by exact_mod_cast h)
  str2et l := if h : ∃ f, Valid f ∧ plain f = l then some (code h.choose : ℝ) else none
  str2et_plain f hf := by
    have h : ∃ g, Valid g ∧ plain g = plain f := ⟨f, hf, rfl⟩
    rw [dif_pos h]
    have := plain_inj (small_of_valid h.choose_spec.1) (small_of_valid hf) h.choose_spec.2
    rw [this]
  Era _ := True
  era_of_valid _ _ := trivial
  stamp t := (exists_nearest t).choose
  stamp_ok t _ := ⟨(exists_nearest t).choose_spec.1, small_of_printable (exists_nearest t).choose_spec.1⟩
  stamp_nearest t _ g hg _ := (exists_nearest t).choose_spec.2 g hg

/-- Noon of 15 March 2024, and a microsecond later. -/
def exNoon : Fields := ⟨2024, 3, 15, 12, 0, 0, 0⟩
@[inherit_doc exNoon] def exLater : Fields := ⟨2024, 3, 15, 12, 0, 0, 1⟩

/-- C141 does not hold: microseconds are lost. -/
theorem C141_violated : ¬ C141_full := by
  intro H
  have hd : DateTime.Ok ⟨exLater, some 0⟩ := ⟨by decide, by simp⟩
  obtain ⟨h1, h2⟩ := C141_violated_micro exClock ⟨exLater, some 0⟩ hd (Or.inr rfl) (by decide)
  obtain ⟨_, d', h3, _, h4⟩ := H exClock _ hd _ h1
  exact h2 d' h3 h4

/-- The texts of noon in three zones, and what is sent for them. -/
example : isoformat ⟨exNoon, none⟩ = "2024-03-15T12:00:00".toList ∧
    isoformat ⟨exNoon, some 0⟩ = "2024-03-15T12:00:00+00:00".toList ∧
    isoformat ⟨exNoon, some 19800000000⟩ = "2024-03-15T12:00:00+05:30".toList ∧
    isoformat ⟨exLater, some (-1000000)⟩ = "2024-03-15T12:00:00.000001-00:00:01".toList ∧
    strip (isoformat ⟨exNoon, some 0⟩) = "2024-03-15T12:00:00".toList ∧
    stampText exNoon = "2024-03-15T12:00:00.000".toList := by decide

example : Valid exNoon ∧ (ofDateTime exClock ⟨exNoon, none⟩).bind (toDateTime exClock) = some ⟨exNoon, some 0⟩ :=
  ⟨by decide, (C141_round_trip_partial exClock ⟨exNoon, none⟩ ⟨by decide, by simp⟩ (Or.inl rfl)).mpr (by decide)⟩

/-- Half past five in India is noon in UTC. -/
example : (⟨⟨2024, 3, 15, 17, 30, 0, 0⟩, some 19800000000⟩ : DateTime).utcReading = civil exNoon := by decide

end Huira.PyDate
