import Verif.Units.DimModel

/-!
# Dimensional algebra (C62)
-/

set_option linter.unusedSimpArgs false
set_option linter.unusedVariables false

namespace Huira.Dim

/-! ## Specification: expressions in base dimensions -/

/-- The nine base dimensions. -/
inductive Base
  | length | mass | time | current | temperature | amount | luminosity | angle | solidAngle
deriving DecidableEq, Repr

/-- A product/quotient expression in the base dimensions, of any shape and size. -/
inductive Expr
  | one
  | base (b : Base)
  | mul (x y : Expr)
  | div (x y : Expr)

/-- Multiset view: how often base `b` occurs above (`above = true`) or below the fraction line. -/
def Expr.occ (b : Base) : Bool → Expr → ℕ
  | _, .one => 0
  | above, .base c => if b = c ∧ above = true then 1 else 0
  | above, .mul x y => x.occ b above + y.occ b above
  | above, .div x y => x.occ b above + y.occ b (!above)

/-- The exponent of a base dimension stored in a dimensionality type. -/
def Dim.exponent (d : Dim) : Base → ℤ
  | .length => d.L
  | .mass => d.M
  | .time => d.T
  | .current => d.I
  | .temperature => d.O
  | .amount => d.N
  | .luminosity => d.J
  | .angle => d.A
  | .solidAngle => d.S

/-- The type the library gives to a base dimension. -/
def ofBase : Base → Dim
  | .length => Length
  | .mass => Mass
  | .time => Time
  | .current => Current
  | .temperature => Temperature
  | .amount => AmountOfSubstance
  | .luminosity => LuminousIntensity
  | .angle => Angle
  | .solidAngle => SolidAngle

/-- The type the library's operators give to an expression. -/
def Expr.dim : Expr → Dim
  | .one => Dimensionless
  | .base b => ofBase b
  | .mul x y => x.dim * y.dim
  | .div x y => x.dim / y.dim

theorem exponent_mul (a b : Dim) (c : Base) : (a * b).exponent c = a.exponent c + b.exponent c := by
  show (Dim.mul a b).exponent c = _
  cases c <;> rfl

theorem exponent_div (a b : Dim) (c : Base) : (a / b).exponent c = a.exponent c - b.exponent c := by
  show (Dim.div a b).exponent c = _
  cases c <;> rfl

theorem exponent_ext {a b : Dim} (h : ∀ c, a.exponent c = b.exponent c) : a = b := by
  ext
  · exact h .length
  · exact h .mass
  · exact h .time
  · exact h .current
  · exact h .temperature
  · exact h .amount
  · exact h .luminosity
  · exact h .angle
  · exact h .solidAngle

/-- **C62.**  In every product/quotient expression, the exponent of each base dimension in the resulting type
is the number of its occurrences above the fraction line minus those below. -/
theorem C62_exponents (e : Expr) (b : Base) :
    e.dim.exponent b = (e.occ b true : ℤ) - (e.occ b false : ℤ) := by
  induction e with
  | one => cases b <;> rfl
  | base c => cases b <;> cases c <;> rfl
  | mul x y hx hy =>
    simp only [Expr.dim, Expr.occ, exponent_mul, hx, hy]; push_cast; ring
  | div x y hx hy =>
    simp only [Expr.dim, Expr.occ, exponent_div, hx, hy, Bool.not_true, Bool.not_false]; push_cast; ring

example : (Expr.div (.base .length) (.mul (.base .time) (.base .time))).dim = Acceleration := by decide

/-- Two expressions get the same type (and so their quantities are inter-convertible, the converting
constructor taking only equal dimensions) exactly when every base dimension has the same net exponent. -/
theorem C62_convertible_iff (e f : Expr) :
    e.dim = f.dim ↔ ∀ b, (e.occ b true : ℤ) - e.occ b false = (f.occ b true : ℤ) - f.occ b false := by
  constructor
  · intro h b; rw [← C62_exponents, ← C62_exponents, h]
  · intro h; exact exponent_ext fun c => by rw [C62_exponents, C62_exponents, h c]

/-- Products and quotients of dimensions obey the laws of a commutative group. -/
theorem C62_group (a b c : Dim) :
    a * b = b * a ∧ a * b * c = a * (b * c) ∧ a * Dimensionless = a ∧ a / a = Dimensionless ∧
    a * b / b = a ∧ a / b * b = a ∧ Dimensionless / (Dimensionless / a) = a ∧ a / (b * c) = a / b / c := by
  refine ⟨?_, ?_, ?_, ?_, ?_, ?_, ?_, ?_⟩ <;> refine exponent_ext fun k => ?_ <;>
    simp only [exponent_mul, exponent_div, show Dimensionless.exponent k = 0 by cases k <;> rfl] <;> ring

/-- `n`-fold product. -/
def Dim.pow (a : Dim) : ℕ → Dim
  | 0 => Dimensionless
  | n + 1 => Dim.pow a n * a

/-- Powers scale exponents. -/
theorem C62_pow (a : Dim) (n : ℕ) (b : Base) : (a.pow n).exponent b = n * a.exponent b := by
  induction n with
  | zero => cases b <;> simp [Dim.pow, Dim.exponent, Dimensionless]
  | succ n ih => simp only [Dim.pow, exponent_mul, ih]; push_cast; ring

/-- The named derived dimensions have the exponents of the SI brochure (order: m, kg, s, A, K, mol, cd,
rad, sr). -/
theorem C62_derived :
    Force = ⟨1, 1, -2, 0, 0, 0, 0, 0, 0⟩ ∧ Pressure = ⟨-1, 1, -2, 0, 0, 0, 0, 0, 0⟩ ∧
    Energy = ⟨2, 1, -2, 0, 0, 0, 0, 0, 0⟩ ∧ Power = ⟨2, 1, -3, 0, 0, 0, 0, 0, 0⟩ ∧
    Charge = ⟨0, 0, 1, 1, 0, 0, 0, 0, 0⟩ ∧ Voltage = ⟨2, 1, -3, -1, 0, 0, 0, 0, 0⟩ ∧
    Capacitance = ⟨-2, -1, 4, 2, 0, 0, 0, 0, 0⟩ ∧ Resistance = ⟨2, 1, -3, -2, 0, 0, 0, 0, 0⟩ ∧
    LuminousFlux = ⟨0, 0, 0, 0, 0, 0, 1, 0, 1⟩ ∧ Illuminance = ⟨-2, 0, 0, 0, 0, 0, 1, 0, 1⟩ ∧
    Luminance = ⟨-2, 0, 0, 0, 0, 0, 1, 0, 0⟩ ∧ Radiance = ⟨0, 1, -3, 0, 0, 0, 0, 0, -1⟩ ∧
    Irradiance = ⟨0, 1, -3, 0, 0, 0, 0, 0, 0⟩ ∧ RadiantIntensity = ⟨2, 1, -3, 0, 0, 0, 0, 0, -1⟩ ∧
    Frequency = ⟨0, 0, -1, 0, 0, 0, 0, 0, 0⟩ ∧ AngularVelocity = ⟨0, 0, -1, 0, 0, 0, 0, 1, 0⟩ ∧
    ReciprocalLength = ⟨-1, 0, 0, 0, 0, 0, 0, 0, 0⟩ ∧ Area = ⟨2, 0, 0, 0, 0, 0, 0, 0, 0⟩ ∧
    Volume = ⟨3, 0, 0, 0, 0, 0, 0, 0, 0⟩ ∧ Velocity = ⟨1, 0, -1, 0, 0, 0, 0, 0, 0⟩ ∧
    Acceleration = ⟨1, 0, -2, 0, 0, 0, 0, 0, 0⟩ ∧ AngularAcceleration = ⟨0, 0, -2, 0, 0, 0, 0, 1, 0⟩ := by
  decide

/-! ## The printed unit determines the dimension -/

theorem digitChar_inj {a b : ℕ} (ha : a < 10) (hb : b < 10) (h : digitChar a = digitChar b) : a = b := by
  interval_cases a <;> interval_cases b <;> first | rfl | (exact absurd h (by decide))

theorem digitChar_isDigit {a : ℕ} (ha : a < 10) : (digitChar a).isDigit = true := by
  interval_cases a <;> rfl

theorem decimal_isDigit (n : ℕ) : ∀ c ∈ decimal n, c.isDigit = true := by
  intro c hc
  simp only [decimal, List.mem_map, List.mem_reverse] at hc
  obtain ⟨k, hk, rfl⟩ := hc
  exact digitChar_isDigit (Nat.digits_lt_base (by norm_num) hk)

theorem map_digitChar_inj : ∀ (l l' : List ℕ), (∀ x ∈ l, x < 10) → (∀ x ∈ l', x < 10) →
    l.map digitChar = l'.map digitChar → l = l'
  | [], [], _, _, _ => rfl
  | [], _ :: _, _, _, h => by simp at h
  | _ :: _, [], _, _, h => by simp at h
  | a :: l, b :: l', h1, h2, h => by
    simp only [List.map_cons, List.cons.injEq] at h
    rw [digitChar_inj (h1 a (by simp)) (h2 b (by simp)) h.1,
      map_digitChar_inj l l' (fun x hx => h1 x (by simp [hx])) (fun x hx => h2 x (by simp [hx])) h.2]

theorem decimal_inj {n m : ℕ} (h : decimal n = decimal m) : n = m := by
  have := map_digitChar_inj _ _
    (fun x hx => Nat.digits_lt_base (b := 10) (by norm_num) (List.mem_reverse.mp hx))
    (fun x hx => Nat.digits_lt_base (b := 10) (by norm_num) (List.mem_reverse.mp hx)) h
  exact Nat.digits_inj_iff.mp (List.reverse_injective this)

/-- Splitting at the first non-digit is unique. -/
theorem digits_split : ∀ (a b X Y : List Char), (∀ c ∈ a, c.isDigit = true) → (∀ c ∈ b, c.isDigit = true) →
    (∀ c, X.head? = some c → c.isDigit = false) → (∀ c, Y.head? = some c → c.isDigit = false) →
    a ++ X = b ++ Y → a = b ∧ X = Y
  | [], [], X, Y, _, _, _, _, h => ⟨rfl, h⟩
  | [], c :: b, X, Y, _, hb, hX, _, h => by
    simp only [List.nil_append, List.cons_append] at h
    have := hX c (by rw [h]; rfl)
    rw [hb c (by simp)] at this; exact absurd this (by simp)
  | c :: a, [], X, Y, ha, _, _, hY, h => by
    simp only [List.nil_append, List.cons_append] at h
    have := hY c (by rw [← h]; rfl)
    rw [ha c (by simp)] at this; exact absurd this (by simp)
  | c :: a, d :: b, X, Y, ha, hb, hX, hY, h => by
    simp only [List.cons_append, List.cons.injEq] at h
    obtain ⟨h1, h2⟩ := digits_split a b X Y (fun c hc => ha c (by simp [hc])) (fun c hc => hb c (by simp [hc])) hX hY h.2
    exact ⟨by rw [h.1, h1], h2⟩

/-- The three shapes of one printed factor. -/
theorem unitString_cases (p v : ℤ) (u : List Char) :
    (p * v ≤ 0 ∧ unitString p v u = []) ∨ (p * v = 1 ∧ unitString p v u = u) ∨
    (1 < p * v ∧ unitString p v u = '(' :: (u ++ (')' :: '^' :: decimal (p * v).toNat))) := by
  unfold unitString
  simp only []
  split_ifs with h1 h2 h3
  · left; exact ⟨by omega, rfl⟩
  · right; left; exact ⟨h2, rfl⟩
  · right; right; exact ⟨by omega, rfl⟩
  · left; exact ⟨by omega, rfl⟩

/-- The possible first characters. -/
def Hd (cs : List Char) (X : List Char) : Prop := ∀ c, X.head? = some c → c ∈ cs

theorem Hd.step {cs X} (h : Hd cs X) (p v : ℤ) (c : Char) (w : List Char) :
    Hd (c :: '(' :: cs) (unitString p v (c :: w) ++ X) := by
  rcases unitString_cases p v (c :: w) with ⟨_, e⟩ | ⟨_, e⟩ | ⟨_, e⟩ <;> rw [e] <;> intro d hd
  · simp only [List.nil_append] at hd; simp [h d hd]
  · simp only [List.cons_append, List.head?_cons, Option.some.injEq] at hd; simp [hd]
  · simp only [List.cons_append, List.head?_cons, Option.some.injEq] at hd; simp [← hd]

/-- The text never starts with `(u)`. -/
def NoParen (u : List Char) (X : List Char) : Prop := ∀ Z, X ≠ '(' :: (u ++ (')' :: Z))

theorem NoParen.step {u X} (h : NoParen u X) (p v : ℤ) (w : List Char) (hw : w.head? ≠ some '(')
    (hne : w ≠ []) (huw : ∀ Y Z, w ++ (')' :: Y) ≠ u ++ (')' :: Z)) : NoParen u (unitString p v w ++ X) := by
  rcases unitString_cases p v w with ⟨_, e⟩ | ⟨_, e⟩ | ⟨_, e⟩ <;> rw [e] <;> intro Z hZ
  · exact h Z (by simpa using hZ)
  · cases w with
    | nil => exact hne rfl
    | cons c w =>
      simp only [List.cons_append, List.cons.injEq] at hZ
      exact hw (by rw [hZ.1]; rfl)
  · simp only [List.cons_append, List.append_assoc, List.cons.injEq, true_and] at hZ
    exact huw _ _ hZ

/-- After a first character `c` comes only `d`. -/
def Snd (c : Char) (P : Option Char → Prop) (X : List Char) : Prop := ∀ Y, X = c :: Y → P Y.head?

theorem Snd.step {c P X} (h : Snd c P X) (p v : ℤ) (b : Char) (w : List Char) (hc : c ≠ '(')
    (hb : b = c → P (w ++ X).head?) : Snd c P (unitString p v (b :: w) ++ X) := by
  rcases unitString_cases p v (b :: w) with ⟨_, e⟩ | ⟨_, e⟩ | ⟨_, e⟩ <;> rw [e] <;> intro Y hY
  · exact h Y (by simpa using hY)
  · simp only [List.cons_append, List.cons.injEq] at hY
    rw [← hY.2]; exact hb hY.1
  · simp only [List.cons_append, List.cons.injEq] at hY
    exact absurd hY.1.symm hc

/-- One printed factor can be read off the front of the text. -/
theorem unitString_cancel {p v p' v' : ℤ} {u X X' : List Char} (hu : u.head? ≠ some '(') (hne : u ≠ [])
    (h1 : X ≠ u ++ X') (h1' : X' ≠ u ++ X) (h2 : NoParen u X) (h2' : NoParen u X')
    (hX : ∀ c, X.head? = some c → c.isDigit = false) (hX' : ∀ c, X'.head? = some c → c.isDigit = false)
    (h : unitString p v u ++ X = unitString p' v' u ++ X') :
    max (p * v) 0 = max (p' * v') 0 ∧ X = X' := by
  obtain ⟨c, w, rfl⟩ : ∃ c w, u = c :: w := by cases u with | nil => exact absurd rfl hne | cons c w => exact ⟨c, w, rfl⟩
  have hc : c ≠ '(' := fun e => hu (by rw [e]; rfl)
  rcases unitString_cases p v (c :: w) with ⟨g, e⟩ | ⟨g, e⟩ | ⟨g, e⟩ <;>
    rcases unitString_cases p' v' (c :: w) with ⟨g', e'⟩ | ⟨g', e'⟩ | ⟨g', e'⟩ <;> rw [e, e'] at h
  · exact ⟨by omega, by simpa using h⟩
  · exact absurd (by simpa using h) h1
  · exact absurd (by simpa using h) (h2 (['^'] ++ decimal (p' * v').toNat ++ X'))
  · exact absurd (by simpa using h.symm) h1'
  · exact ⟨by omega, by simpa using h⟩
  · simp only [List.cons_append, List.cons.injEq] at h; exact absurd h.1 hc
  · exact absurd (by simpa using h.symm) (h2' (['^'] ++ decimal (p * v).toNat ++ X))
  · simp only [List.cons_append, List.cons.injEq] at h; exact absurd h.1.symm hc
  · simp only [List.cons_append, List.append_assoc, List.cons.injEq, true_and, List.append_cancel_left_eq] at h
    obtain ⟨hd, hx⟩ := digits_split _ _ _ _ (decimal_isDigit _) (decimal_isDigit _) hX hX' h
    have := decimal_inj hd
    exact ⟨by omega, hx⟩

/-- What may follow a side of the fraction: nothing, or a blank. -/
def Sp (r : List Char) : Prop := Hd [' '] r

theorem side_cancel {p p' : ℤ} {d d' : Dim} {r r' : List Char} (hr : Sp r) (hr' : Sp r')
    (h : side p d ++ r = side p' d' ++ r') :
    (∀ b, max (p * d.exponent b) 0 = max (p' * d'.exponent b) 0) ∧ r = r' := by
  have nd : ∀ {cs X}, Hd cs X → (∀ c ∈ cs, c.isDigit = false) → ∀ c, X.head? = some c → c.isDigit = false :=
    fun h1 h2 c hc => h2 c (h1 c hc)
  have nh : ∀ {cs X} (c : Char) (Y : List Char), Hd cs X → c ∉ cs → X ≠ c :: Y := by
    intro cs X c Y h1 h2 e; exact h2 (h1 c (by rw [e]; rfl))
  have np : ∀ {cs X} (u : List Char), Hd cs X → '(' ∉ cs → NoParen u X := by
    intro cs X u h1 h2 Z e; exact h2 (h1 '(' (by rw [e]; rfl))
  have sn : ∀ {cs X} (c : Char) (P), Hd cs X → c ∉ cs → Snd c P X := by
    intro cs X c P h1 h2 Y e; exact absurd (h1 c (by rw [e]; rfl)) h2
  -- the successive tails
  have key : ∀ (q : ℤ) (e : Dim) (t : List Char), Sp t →
      ∃ X2 X3 X4 X5 X6 X7 X8 X9, side q e ++ t = unitString q e.L ['m'] ++ X2 ∧
        X2 = unitString q e.M ['K', 'g'] ++ X3 ∧ X3 = unitString q e.T ['s'] ++ X4 ∧
        X4 = unitString q e.I ['A'] ++ X5 ∧ X5 = unitString q e.O ['K'] ++ X6 ∧
        X6 = unitString q e.N ['m', 'o', 'l'] ++ X7 ∧ X7 = unitString q e.J ['c', 'd'] ++ X8 ∧
        X8 = unitString q e.A ['r', 'a', 'd'] ++ X9 ∧ X9 = unitString q e.S ['s', 'r'] ++ t := by
    intro q e t _
    exact ⟨_, _, _, _, _, _, _, _, by simp [side], rfl, rfl, rfl, rfl, rfl, rfl, rfl, rfl⟩
  have facts : ∀ (q : ℤ) (e : Dim) (t X2 X3 X4 X5 X6 X7 X8 X9 : List Char), Sp t →
      X2 = unitString q e.M ['K', 'g'] ++ X3 → X3 = unitString q e.T ['s'] ++ X4 →
        X4 = unitString q e.I ['A'] ++ X5 → X5 = unitString q e.O ['K'] ++ X6 →
        X6 = unitString q e.N ['m', 'o', 'l'] ++ X7 → X7 = unitString q e.J ['c', 'd'] ++ X8 →
        X8 = unitString q e.A ['r', 'a', 'd'] ++ X9 → X9 = unitString q e.S ['s', 'r'] ++ t →
      (Hd ['s', '(', ' '] X9 ∧ Hd ['r', '(', 's', '(', ' '] X8 ∧ Hd ['c', '(', 'r', '(', 's', '(', ' '] X7 ∧
       Hd ['m', '(', 'c', '(', 'r', '(', 's', '(', ' '] X6 ∧ Hd ['K', '(', 'm', '(', 'c', '(', 'r', '(', 's', '(', ' '] X5 ∧
       Hd ['A', '(', 'K', '(', 'm', '(', 'c', '(', 'r', '(', 's', '(', ' '] X4 ∧
       Hd ['s', '(', 'A', '(', 'K', '(', 'm', '(', 'c', '(', 'r', '(', 's', '(', ' '] X3 ∧
       Hd ['K', '(', 's', '(', 'A', '(', 'K', '(', 'm', '(', 'c', '(', 'r', '(', 's', '(', ' '] X2) ∧
      (NoParen ['m'] X2 ∧ NoParen ['K', 'g'] X3 ∧ NoParen ['s'] X4 ∧ NoParen ['A'] X5 ∧ NoParen ['K'] X6 ∧
       NoParen ['m', 'o', 'l'] X7 ∧ NoParen ['c', 'd'] X8 ∧ NoParen ['r', 'a', 'd'] X9 ∧ NoParen ['s', 'r'] t) ∧
      (Snd 'm' (fun o => o = some 'o') X2 ∧ Snd 'K' (fun o => o ≠ some 'g') X3 ∧
       (∀ Y, X4 = 's' :: 'r' :: Y → Hd [' '] Y) ∧ Snd 'r' (fun o => o = some 'a') X4) := by
    intro q e t X2 X3 X4 X5 X6 X7 X8 X9 ht e2 e3 e4 e5 e6 e7 e8 e9
    have H9 : Hd ['s', '(', ' '] X9 := by rw [e9]; exact Hd.step ht _ _ _ _
    have H8 : Hd ['r', '(', 's', '(', ' '] X8 := by rw [e8]; exact Hd.step H9 _ _ _ _
    have H7 : Hd ['c', '(', 'r', '(', 's', '(', ' '] X7 := by rw [e7]; exact Hd.step H8 _ _ _ _
    have H6 : Hd ['m', '(', 'c', '(', 'r', '(', 's', '(', ' '] X6 := by rw [e6]; exact Hd.step H7 _ _ _ _
    have H5 : Hd ['K', '(', 'm', '(', 'c', '(', 'r', '(', 's', '(', ' '] X5 := by rw [e5]; exact Hd.step H6 _ _ _ _
    have H4 : Hd ['A', '(', 'K', '(', 'm', '(', 'c', '(', 'r', '(', 's', '(', ' '] X4 := by
      rw [e4]; exact Hd.step H5 _ _ _ _
    have H3 : Hd ['s', '(', 'A', '(', 'K', '(', 'm', '(', 'c', '(', 'r', '(', 's', '(', ' '] X3 := by
      rw [e3]; exact Hd.step H4 _ _ _ _
    have H2 : Hd ['K', '(', 's', '(', 'A', '(', 'K', '(', 'm', '(', 'c', '(', 'r', '(', 's', '(', ' '] X2 := by
      rw [e2]; exact Hd.step H3 _ _ _ _
    refine ⟨⟨H9, H8, H7, H6, H5, H4, H3, H2⟩, ⟨?_, ?_, ?_, ?_, ?_, ?_, ?_, ?_, ?_⟩, ?_, ?_, ?_, ?_⟩
    · rw [e2, e3, e4, e5, e6, e7, e8, e9]
      exact ((((((((np _ ht (by decide)).step _ _ _ (by decide) (by decide) (by simp)).step _ _ _ (by decide) (by decide) (by simp)).step _ _ _ (by decide) (by decide) (by simp)).step _ _ _ (by decide) (by decide) (by simp)).step _ _ _ (by decide) (by decide) (by simp)).step _ _ _ (by decide) (by decide) (by simp)).step _ _ _ (by decide) (by decide) (by simp)).step _ _ _ (by decide) (by decide) (by simp)
    · rw [e3, e4, e5, e6, e7, e8, e9]
      exact (((((((np _ ht (by decide)).step _ _ _ (by decide) (by decide) (by simp)).step _ _ _ (by decide) (by decide) (by simp)).step _ _ _ (by decide) (by decide) (by simp)).step _ _ _ (by decide) (by decide) (by simp)).step _ _ _ (by decide) (by decide) (by simp)).step _ _ _ (by decide) (by decide) (by simp)).step _ _ _ (by decide) (by decide) (by simp)
    · rw [e4, e5, e6, e7, e8, e9]
      exact ((((((np _ ht (by decide)).step _ _ _ (by decide) (by decide) (by simp)).step _ _ _ (by decide) (by decide) (by simp)).step _ _ _ (by decide) (by decide) (by simp)).step _ _ _ (by decide) (by decide) (by simp)).step _ _ _ (by decide) (by decide) (by simp)).step _ _ _ (by decide) (by decide) (by simp)
    · rw [e5, e6, e7, e8, e9]
      exact (((((np _ ht (by decide)).step _ _ _ (by decide) (by decide) (by simp)).step _ _ _ (by decide) (by decide) (by simp)).step _ _ _ (by decide) (by decide) (by simp)).step _ _ _ (by decide) (by decide) (by simp)).step _ _ _ (by decide) (by decide) (by simp)
    · rw [e6, e7, e8, e9]
      exact ((((np _ ht (by decide)).step _ _ _ (by decide) (by decide) (by simp)).step _ _ _ (by decide) (by decide) (by simp)).step _ _ _ (by decide) (by decide) (by simp)).step _ _ _ (by decide) (by decide) (by simp)
    · rw [e7, e8, e9]
      exact (((np _ ht (by decide)).step _ _ _ (by decide) (by decide) (by simp)).step _ _ _ (by decide) (by decide) (by simp)).step _ _ _ (by decide) (by decide) (by simp)
    · rw [e8, e9]
      exact ((np _ ht (by decide)).step _ _ _ (by decide) (by decide) (by simp)).step _ _ _ (by decide) (by decide) (by simp)
    · rw [e9]
      exact (np _ ht (by decide)).step _ _ _ (by decide) (by decide) (by simp)
    · exact np _ ht (by decide)
    · rw [e2]
      refine Snd.step ?_ _ _ _ _ (by decide) (fun hh => absurd hh (by decide))
      rw [e3]; refine Snd.step ?_ _ _ _ _ (by decide) (fun hh => absurd hh (by decide))
      rw [e4]; refine Snd.step ?_ _ _ _ _ (by decide) (fun hh => absurd hh (by decide))
      rw [e5]; refine Snd.step ?_ _ _ _ _ (by decide) (fun hh => absurd hh (by decide))
      rw [e6]; exact Snd.step (sn _ _ H7 (by decide)) _ _ _ _ (by decide) (by simp)
    · rw [e3]; refine Snd.step ?_ _ _ _ _ (by decide) (fun hh => absurd hh (by decide))
      rw [e4]; refine Snd.step ?_ _ _ _ _ (by decide) (fun hh => absurd hh (by decide))
      rw [e5]; refine Snd.step (sn _ _ H6 (by decide)) _ _ _ _ (by decide) ?_
      intro _ hg
      exact absurd (H6 'g' (by simpa using hg)) (by decide)
    · intro Y hY
      have s1 : ∀ {X p v b w}, unitString p v (b :: w) ++ X = 's' :: 'r' :: Y → b ≠ 's' → X = 's' :: 'r' :: Y := by
        intro X p v b w hh hb
        rcases unitString_cases p v (b :: w) with ⟨_, ee⟩ | ⟨_, ee⟩ | ⟨_, ee⟩ <;> rw [ee] at hh
        · simpa using hh
        · simp only [List.cons_append, List.cons.injEq] at hh; exact absurd hh.1 hb
        · simp only [List.cons_append, List.cons.injEq] at hh; exact absurd hh.1 (by decide)
      rw [e4] at hY; have hY := s1 hY (by decide)
      rw [e5] at hY; have hY := s1 hY (by decide)
      rw [e6] at hY; have hY := s1 hY (by decide)
      rw [e7] at hY; have hY := s1 hY (by decide)
      rw [e8] at hY; have hY := s1 hY (by decide)
      rw [e9] at hY
      rcases unitString_cases q e.S ['s', 'r'] with ⟨_, ee⟩ | ⟨_, ee⟩ | ⟨_, ee⟩ <;> rw [ee] at hY
      · exact absurd hY (nh _ _ ht (by decide))
      · have : t = Y := by simpa using hY
        rw [← this]; exact ht
      · simp only [List.cons_append, List.cons.injEq] at hY; exact absurd hY.1 (by decide)
    · rw [e4]; refine Snd.step ?_ _ _ _ _ (by decide) (fun hh => absurd hh (by decide))
      rw [e5]; refine Snd.step ?_ _ _ _ _ (by decide) (fun hh => absurd hh (by decide))
      rw [e6]; refine Snd.step ?_ _ _ _ _ (by decide) (fun hh => absurd hh (by decide))
      rw [e7]; refine Snd.step ?_ _ _ _ _ (by decide) (fun hh => absurd hh (by decide))
      rw [e8]; exact Snd.step (sn _ _ H9 (by decide)) _ _ _ _ (by decide) (by simp)
  obtain ⟨X2, X3, X4, X5, X6, X7, X8, X9, g1, g2, g3, g4, g5, g6, g7, g8, g9⟩ := key p d r hr
  obtain ⟨Y2, Y3, Y4, Y5, Y6, Y7, Y8, Y9, k1, k2, k3, k4, k5, k6, k7, k8, k9⟩ := key p' d' r' hr'
  obtain ⟨⟨H9, H8, H7, H6, H5, H4, H3, H2⟩, ⟨N1, N2, N3, N4, N5, N6, N7, N8, N9⟩, S1, S2, S3, S4⟩ :=
    facts p d r X2 X3 X4 X5 X6 X7 X8 X9 hr g2 g3 g4 g5 g6 g7 g8 g9
  obtain ⟨⟨J9, J8, J7, J6, J5, J4, J3, J2⟩, ⟨M1, M2, M3, M4, M5, M6, M7, M8, M9⟩, T1, T2, T3, T4⟩ :=
    facts p' d' r' Y2 Y3 Y4 Y5 Y6 Y7 Y8 Y9 hr' k2 k3 k4 k5 k6 k7 k8 k9
  rw [g1, k1] at h
  have nm : ∀ {X Y : List Char} {cs}, Snd 'm' (fun o => o = some 'o') X → Hd cs Y → 'o' ∉ cs → X ≠ ['m'] ++ Y := by
    intro X Y cs hs hd ho e
    exact ho (hd 'o' (hs Y e))
  have nk : ∀ {X Y : List Char}, Snd 'K' (fun o => o ≠ some 'g') X → X ≠ ['K', 'g'] ++ Y := by
    intro X Y hs e
    exact hs ('g' :: Y) e rfl
  have ns : ∀ {X Y : List Char}, (∀ Z, X = 's' :: 'r' :: Z → Hd [' '] Z) → Snd 'r' (fun o => o = some 'a') Y →
      (∀ Z, X = 's' :: Z → Z.head? = some 'r') → X ≠ ['s'] ++ Y := by
    intro X Y h1 h2 h3 e
    have := h3 Y e
    obtain ⟨Z, rfl⟩ : ∃ Z, Y = 'r' :: Z := by
      cases Y with
      | nil => simp at this
      | cons a Z => simp at this; exact ⟨Z, by rw [this]⟩
    have a1 := h1 Z e
    have a2 := h2 Z rfl
    exact absurd (a1 _ a2) (by decide)
  have srs : ∀ (q : ℤ) (e : Dim) (t Z4 Z5 Z6 Z7 Z8 Z9 : List Char), Sp t →
        Z4 = unitString q e.I ['A'] ++ Z5 → Z5 = unitString q e.O ['K'] ++ Z6 →
        Z6 = unitString q e.N ['m', 'o', 'l'] ++ Z7 → Z7 = unitString q e.J ['c', 'd'] ++ Z8 →
        Z8 = unitString q e.A ['r', 'a', 'd'] ++ Z9 → Z9 = unitString q e.S ['s', 'r'] ++ t →
        Snd 's' (fun o => o = some 'r') Z4 := by
    intro q e t Z4 Z5 Z6 Z7 Z8 Z9 ht e4 e5 e6 e7 e8 e9
    rw [e4]; refine Snd.step ?_ _ _ _ _ (by decide) (fun hh => absurd hh (by decide))
    rw [e5]; refine Snd.step ?_ _ _ _ _ (by decide) (fun hh => absurd hh (by decide))
    rw [e6]; refine Snd.step ?_ _ _ _ _ (by decide) (fun hh => absurd hh (by decide))
    rw [e7]; refine Snd.step ?_ _ _ _ _ (by decide) (fun hh => absurd hh (by decide))
    rw [e8]; refine Snd.step ?_ _ _ _ _ (by decide) (fun hh => absurd hh (by decide))
    rw [e9]; exact Snd.step (sn _ _ ht (by decide)) _ _ _ _ (by decide) (by simp)
  have SX := srs p d r X4 X5 X6 X7 X8 X9 hr g4 g5 g6 g7 g8 g9
  have SY := srs p' d' r' Y4 Y5 Y6 Y7 Y8 Y9 hr' k4 k5 k6 k7 k8 k9
  obtain ⟨mL, h⟩ := unitString_cancel (by decide) (by decide) (nm S1 J2 (by decide)) (nm T1 H2 (by decide)) N1 M1
    (nd H2 (by decide)) (nd J2 (by decide)) h
  rw [g2, k2] at h
  obtain ⟨mM, h⟩ := unitString_cancel (by decide) (by decide) (nk S2) (nk T2) N2 M2
    (nd H3 (by decide)) (nd J3 (by decide)) h
  rw [g3, k3] at h
  obtain ⟨mT, h⟩ := unitString_cancel (by decide) (by decide) (ns S3 T4 SX) (ns T3 S4 SY) N3 M3
    (nd H4 (by decide)) (nd J4 (by decide)) h
  rw [g4, k4] at h
  obtain ⟨mI, h⟩ := unitString_cancel (by decide) (by decide) (nh _ _ H5 (by decide)) (nh _ _ J5 (by decide)) N4 M4
    (nd H5 (by decide)) (nd J5 (by decide)) h
  rw [g5, k5] at h
  obtain ⟨mO, h⟩ := unitString_cancel (by decide) (by decide) (nh _ _ H6 (by decide)) (nh _ _ J6 (by decide)) N5 M5
    (nd H6 (by decide)) (nd J6 (by decide)) h
  rw [g6, k6] at h
  obtain ⟨mN, h⟩ := unitString_cancel (by decide) (by decide) (nh _ _ H7 (by decide)) (nh _ _ J7 (by decide)) N6 M6
    (nd H7 (by decide)) (nd J7 (by decide)) h
  rw [g7, k7] at h
  obtain ⟨mJ, h⟩ := unitString_cancel (by decide) (by decide) (nh _ _ H8 (by decide)) (nh _ _ J8 (by decide)) N7 M7
    (nd H8 (by decide)) (nd J8 (by decide)) h
  rw [g8, k8] at h
  obtain ⟨mA, h⟩ := unitString_cancel (by decide) (by decide) (nh _ _ H9 (by decide)) (nh _ _ J9 (by decide)) N8 M8
    (nd H9 (by decide)) (nd J9 (by decide)) h
  rw [g9, k9] at h
  obtain ⟨mS, h⟩ := unitString_cancel (by decide) (by decide) (nh _ _ hr (by decide)) (nh _ _ hr' (by decide)) N9 M9
    (nd hr (by decide)) (nd hr' (by decide)) h
  refine ⟨?_, h⟩
  intro b
  cases b <;> assumption

/-- The exponents are determined by their positive and negative parts. -/
theorem dim_of_sides {d d' : Dim} (h : ∀ b, max (1 * d.exponent b) 0 = max (1 * d'.exponent b) 0)
    (h' : ∀ b, max (-1 * d.exponent b) 0 = max (-1 * d'.exponent b) 0) : d = d' :=
  exponent_ext fun b => by have := h b; have := h' b; omega

/-- Possible first characters of a side followed by `r`. -/
theorem side_hd (p : ℤ) (d : Dim) {r : List Char} (hr : Sp r) :
    Hd ['m', '(', 'K', '(', 's', '(', 'A', '(', 'K', '(', 'm', '(', 'c', '(', 'r', '(', 's', '(', ' '] (side p d ++ r) := by
  unfold side
  simp only [List.append_assoc]
  exact Hd.step (Hd.step (Hd.step (Hd.step (Hd.step (Hd.step (Hd.step (Hd.step (Hd.step hr _ _ _ _) _ _ _ _) _ _ _ _) _ _ _ _) _ _ _ _) _ _ _ _) _ _ _ _) _ _ _ _) _ _ _ _

theorem side_nil_cancel {p p' : ℤ} {d d' : Dim} (h : side p d = side p' d') :
    ∀ b, max (p * d.exponent b) 0 = max (p' * d'.exponent b) 0 :=
  (side_cancel (r := []) (r' := []) (fun c hc => by simp at hc) (fun c hc => by simp at hc) (by rw [h])).1

theorem sp_sep (X : List Char) : Sp (' ' :: X) := fun c hc => by simp at hc; simp [← hc]
theorem sp_nil : Sp [] := fun c hc => by simp at hc

/-- The general shape of the fall-back text. -/
theorem fallback_cases (d : Dim) :
    (fallback d = "dimensionless".toList ∧ side 1 d = [] ∧ side (-1) d = []) ∨
    (fallback d = '1' :: ' ' :: '/' :: ' ' :: side (-1) d ∧ side 1 d = []) ∨
    (fallback d = side 1 d ++ [] ∧ side (-1) d = [] ∧ side 1 d ≠ []) ∨
    (fallback d = side 1 d ++ (' ' :: '/' :: ' ' :: side (-1) d) ∧ side 1 d ≠ [] ∧ side (-1) d ≠ []) := by
  unfold fallback
  simp only []
  split_ifs with h1 h2 h3
  · left; exact ⟨rfl, h1.2, h1.1⟩
  · right; left; exact ⟨rfl, h2⟩
  · right; right; left; exact ⟨by simp, h3, h2⟩
  · right; right; right; exact ⟨rfl, h2, h3⟩

theorem side_head_ne {p : ℤ} {d : Dim} {r : List Char} (hr : Sp r) (c : Char) (X : List Char)
    (hc : c ∉ ['m', '(', 'K', '(', 's', '(', 'A', '(', 'K', '(', 'm', '(', 'c', '(', 'r', '(', 's', '(', ' ']) :
    side p d ++ r ≠ c :: X := fun e => hc (side_hd p d hr c (by rw [e]; rfl))

theorem fallback_inj {d d' : Dim} (h : fallback d = fallback d') : d = d' := by
  have dl : "dimensionless".toList = 'd' :: "imensionless".toList := by decide
  rcases fallback_cases d with ⟨e, a, b⟩ | ⟨e, a⟩ | ⟨e, a, b⟩ | ⟨e, a, b⟩ <;>
    rcases fallback_cases d' with ⟨e', a', b'⟩ | ⟨e', a'⟩ | ⟨e', a', b'⟩ | ⟨e', a', b'⟩ <;> rw [e, e'] at h
  · exact dim_of_sides (side_nil_cancel (by rw [a, a'])) (side_nil_cancel (by rw [b, b']))
  · rw [dl] at h; exact absurd (List.cons.inj h).1 (by decide)
  · rw [dl] at h; exact absurd h.symm (side_head_ne sp_nil _ _ (by decide))
  · rw [dl] at h; exact absurd h.symm (side_head_ne (sp_sep _) _ _ (by decide))
  · rw [dl] at h; exact absurd (List.cons.inj h).1 (by decide)
  · simp only [List.cons.injEq, true_and] at h
    exact dim_of_sides (side_nil_cancel (by rw [a, a'])) (side_nil_cancel h)
  · exact absurd h.symm (side_head_ne sp_nil _ _ (by decide))
  · exact absurd h.symm (side_head_ne (sp_sep _) _ _ (by decide))
  · rw [dl] at h; exact absurd h (side_head_ne sp_nil _ _ (by decide))
  · exact absurd h (side_head_ne sp_nil _ _ (by decide))
  · simp only [List.append_nil] at h
    exact dim_of_sides (side_nil_cancel h) (side_nil_cancel (by rw [a, a']))
  · exact absurd (side_cancel sp_nil (sp_sep _) h).2 (by simp)
  · rw [dl] at h; exact absurd h (side_head_ne (sp_sep _) _ _ (by decide))
  · exact absurd h (side_head_ne (sp_sep _) _ _ (by decide))
  · exact absurd (side_cancel (sp_sep _) sp_nil h).2 (by simp)
  · obtain ⟨h1, h2⟩ := side_cancel (sp_sep _) (sp_sep _) h
    simp only [List.cons.injEq, true_and] at h2
    exact dim_of_sides h1 (side_nil_cancel h2)

/-- No fall-back text starts with any other character. -/
theorem fallback_head (d : Dim) (c : Char) (X : List Char)
    (hc : c ∉ ['1', 'd', 'm', '(', 'K', '(', 's', '(', 'A', '(', 'K', '(', 'm', '(', 'c', '(', 'r', '(', 's', '(', ' ']) :
    fallback d ≠ c :: X := by
  have dl : "dimensionless".toList = 'd' :: "imensionless".toList := by decide
  simp only [List.mem_cons, not_or] at hc
  rcases fallback_cases d with ⟨e, a, b⟩ | ⟨e, a⟩ | ⟨e, a, b⟩ | ⟨e, a, b⟩ <;> rw [e]
  · rw [dl]; intro h; exact hc.2.1 (List.cons.inj h).1.symm
  · intro h; exact hc.1 (List.cons.inj h).1.symm
  · exact side_head_ne sp_nil _ _ (by simp only [List.mem_cons, not_or]; exact hc.2.2)
  · exact side_head_ne (sp_sep _) _ _ (by simp only [List.mem_cons, not_or]; exact hc.2.2)

/-- The only fall-back that could look like the luminance's `cd / m^2` does not: `m` is never followed by `^`. -/
theorem fallback_ne_luminance (d : Dim) : fallback d ≠ ['c', 'd', ' ', '/', ' ', 'm', '^', '2'] := by
  have e0 : ['c', 'd', ' ', '/', ' ', 'm', '^', '2'] =
      side 1 LuminousIntensity ++ (' ' :: '/' :: ' ' :: ['m', '^', '2']) := by decide
  have dl : "dimensionless".toList = 'd' :: "imensionless".toList := by decide
  rcases fallback_cases d with ⟨e, a, b⟩ | ⟨e, a⟩ | ⟨e, a, b⟩ | ⟨e, a, b⟩ <;> rw [e]
  · decide
  · intro h; exact absurd (List.cons.inj h).1 (by decide)
  · intro h; rw [e0] at h; exact absurd (side_cancel sp_nil (sp_sep _) h).2 (by simp)
  · intro h; rw [e0] at h
    have h2 := (side_cancel (sp_sep _) (sp_sep _) h).2
    simp only [List.cons.injEq, true_and] at h2
    -- side (-1) d = "m^2"
    have hX := h2
    unfold side at hX
    have hd2 := Hd.step (Hd.step (Hd.step (Hd.step (Hd.step (Hd.step (Hd.step (Hd.step sp_nil (-1) d.S 's' ['r'])
      (-1) d.A 'r' ['a', 'd']) (-1) d.J 'c' ['d']) (-1) d.N 'm' ['o', 'l']) (-1) d.O 'K' []) (-1) d.I 'A' [])
      (-1) d.T 's' []) (-1) d.M 'K' ['g']
    simp only [List.append_nil] at hd2
    have skip : ∀ {X p v b w Y}, unitString p v (b :: w) ++ X = 'm' :: '^' :: Y → b ≠ 'm' → X = 'm' :: '^' :: Y := by
      intro X p v b w Y hh hb
      rcases unitString_cases p v (b :: w) with ⟨_, ee⟩ | ⟨_, ee⟩ | ⟨_, ee⟩ <;> rw [ee] at hh
      · simpa using hh
      · simp only [List.cons_append, List.cons.injEq] at hh; exact absurd hh.1 hb
      · simp only [List.cons_append, List.cons.injEq] at hh; exact absurd hh.1 (by decide)
    rcases unitString_cases (-1) d.L ['m'] with ⟨_, ee⟩ | ⟨_, ee⟩ | ⟨_, ee⟩ <;> rw [ee] at hX
    · simp only [List.nil_append] at hX
      have hX := skip hX (by decide)
      have hX := skip hX (by decide)
      have hX := skip hX (by decide)
      have hX := skip hX (by decide)
      rcases unitString_cases (-1) d.N ['m', 'o', 'l'] with ⟨_, ff⟩ | ⟨_, ff⟩ | ⟨_, ff⟩ <;> rw [ff] at hX
      · simp only [List.nil_append] at hX
        have hX := skip hX (by decide)
        have hX := skip hX (by decide)
        have hX := skip (X := []) (by rw [List.append_nil]; exact hX) (by decide)
        exact absurd hX (by simp)
      · simp at hX
      · simp at hX
    · simp only [List.cons_append, List.nil_append, List.cons.injEq, true_and] at hX
      exact absurd (hd2 '^' (by rw [hX]; rfl)) (by decide)
    · simp at hX

theorem named_ne_fallback : ∀ p ∈ named, ∀ d, fallback d ≠ p.2 := by
  intro p hp d
  simp only [named, List.mem_cons, List.not_mem_nil, or_false] at hp
  rcases hp with rfl | rfl | rfl | rfl | rfl | rfl | rfl | rfl | rfl | rfl | rfl | rfl | rfl | rfl | rfl
  all_goals first
    | exact fallback_ne_luminance d
    | exact fallback_head d _ _ (by decide)

/-- **C62.**  The printed SI unit of a quantity identifies its dimension: two quantities whose units print
alike are convertible into one another.  For every pair of dimensions, with exponents of any size. -/
theorem C62_si_string_injective (d d' : Dim) (h : toSiString d = toSiString d') : d = d' := by
  unfold toSiString at h
  have key : ∀ p ∈ named, ∀ q ∈ named, p.2 = q.2 → p.1 = q.1 := by decide
  cases h1 : named.find? (fun p => decide (p.1 = d)) with
  | some p =>
    have m1 := List.mem_of_find?_eq_some h1
    have e1 := List.find?_some h1
    simp only [decide_eq_true_eq] at e1
    cases h2 : named.find? (fun p => decide (p.1 = d')) with
    | some q =>
      have m2 := List.mem_of_find?_eq_some h2
      have e2 := List.find?_some h2
      simp only [decide_eq_true_eq] at e2
      rw [h1, h2] at h
      rw [← e1, ← e2]; exact key p m1 q m2 h
    | none =>
      rw [h1, h2] at h
      exact absurd h.symm (named_ne_fallback p m1 d')
  | none =>
    cases h2 : named.find? (fun p => decide (p.1 = d')) with
    | some q =>
      rw [h1, h2] at h
      exact absurd h (named_ne_fallback q (List.mem_of_find?_eq_some h2) d)
    | none =>
      rw [h1, h2] at h
      exact fallback_inj h

/-- The names printed for the derived SI units. -/
theorem C62_names :
    toSiString Frequency = "Hz".toList ∧ toSiString Force = "N".toList ∧ toSiString Pressure = "Pa".toList ∧
    toSiString Energy = "J".toList ∧ toSiString Power = "W".toList ∧ toSiString Charge = "C".toList ∧
    toSiString Voltage = "V".toList ∧ toSiString Capacitance = "F".toList ∧
    toSiString Resistance = "Ohm".toList ∧ toSiString LuminousFlux = "lm".toList ∧
    toSiString Dimensionless = "dimensionless".toList ∧ toSiString Length = "m".toList ∧
    toSiString Mass = "Kg".toList ∧ toSiString Time = "s".toList ∧ toSiString Current = "A".toList ∧
    toSiString Temperature = "K".toList ∧ toSiString AmountOfSubstance = "mol".toList ∧
    toSiString LuminousIntensity = "cd".toList ∧ toSiString Angle = "rad".toList ∧
    toSiString SolidAngle = "sr".toList ∧ toSiString Radiance = "W / m^2 sr".toList ∧
    toSiString Irradiance = "W / m^2".toList ∧ toSiString RadiantIntensity = "W / sr".toList ∧
    toSiString Luminance = "cd / m^2".toList ∧ toSiString Illuminance = "lm / m^2".toList := by
  decide +kernel

example : toSiString Acceleration = "m / (s)^2".toList := by decide +kernel
example : toSiString (Length * Time) = "ms".toList := by decide +kernel
example : toSiString ReciprocalLength = "1 / m".toList := by decide +kernel
example : toSiString Radiance = "W / m^2 sr".toList := by decide +kernel

end Huira.Dim
