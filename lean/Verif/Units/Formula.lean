import Verif.Units.QuantityProps

/-!
# Formulas with units (C154)

Any formula a user can write with quantities: literals in any unit, conversions, sums and differences in equal or mixed
units, negation, multiples, products, quotients, reciprocals, and plain numbers obtained from dimensionless quantities
(`Quantity<Dimensionless>::operator double`, `quantity.hpp` 444-578) or with `to_si`. The operators are those of
`Units/QuantityModel` (`quantity.hpp` 60-180, 250-342, `quantity.ipp` 20-140); the dimensionless class has the same
ones (`quantity.hpp` 502-560). Exact real arithmetic.
-/
set_option linter.unusedSimpArgs false
namespace Huira.Units

open Huira.Dim (Dim)

mutual
/-- A formula of dimension `d`, held in the unit `s`. -/
inductive Fm : Dim → Scale → Type
  | lit (d : Dim) (s : Scale) (v : ℝ) : Fm d s
  | conv {d : Dim} {s : Scale} (t : Scale) (e : Fm d s) : Fm d t
  | add {d : Dim} {s t : Scale} (a : Fm d s) (b : Fm d t) : Fm d s
  | sub {d : Dim} {s t : Scale} (a : Fm d s) (b : Fm d t) : Fm d s
  | neg {d : Dim} {s : Scale} (a : Fm d s) : Fm d s
  | scale {d : Dim} {s : Scale} (k : Nm) (a : Fm d s) : Fm d s
  | divScalar {d : Dim} {s : Scale} (a : Fm d s) (k : Nm) : Fm d s
  | mul {d1 d2 : Dim} {s1 s2 : Scale} (a : Fm d1 s1) (b : Fm d2 s2) : Fm (d1 * d2) (mulScale s1 s2)
  | div {d1 d2 : Dim} {s1 s2 : Scale} (a : Fm d1 s1) (b : Fm d2 s2) : Fm (d1 / d2) (divScale s1 s2)
  | recip {d : Dim} {s : Scale} (k : Nm) (a : Fm d s) : Fm (Dim.Dimensionless / d) (divScale (.ratio 1) s)
/-- A plain number. -/
inductive Nm : Type
  | const (v : ℝ) : Nm
  | ofQuantity {s : Scale} (e : Fm Dim.Dimensionless s) : Nm
  | toSi {d : Dim} {s : Scale} (e : Fm d s) : Nm
  | add (a b : Nm) : Nm
  | mul (a b : Nm) : Nm
  | div (a b : Nm) : Nm
end

mutual
/-- What the program computes (quantity.hpp 60-180, 250-300, 502-546; `addMixed` converts the right operand first). -/
noncomputable def Fm.eval : {d : Dim} → {s : Scale} → Fm d s → Q d s
  | _, _, .lit _ _ v => ⟨v⟩
  | _, _, .conv t e => (Fm.eval e).as t
  | _, _, .add a b => (Fm.eval a).addMixed (Fm.eval b)
  | _, _, .sub a b => (Fm.eval a).subMixed (Fm.eval b)
  | _, _, .neg a => (Fm.eval a).neg
  | _, _, .scale k a => (Fm.eval a).scale (Nm.eval k)
  | _, _, .divScalar a k => (Fm.eval a).divScalar (Nm.eval k)
  | _, _, .mul a b => (Fm.eval a).mul (Fm.eval b)
  | _, _, .div a b => (Fm.eval a).div (Fm.eval b)
  | _, _, .recip k a => (Fm.eval a).recip (Nm.eval k)
/-- `operator double` of a dimensionless quantity is `to_si` (quantity.hpp 473, quantity.ipp 86-90). -/
noncomputable def Nm.eval : Nm → ℝ
  | .const v => v
  | .ofQuantity e => (Fm.eval e).toSi
  | .toSi e => (Fm.eval e).toSi
  | .add a b => Nm.eval a + Nm.eval b
  | .mul a b => Nm.eval a * Nm.eval b
  | .div a b => Nm.eval a / Nm.eval b
end

/-! ## Specification -/

mutual
/-- What the formula says: every literal is the physical amount it stands for, units are never looked at again. -/
noncomputable def Fm.says : {d : Dim} → {s : Scale} → Fm d s → ℝ
  | _, _, .lit _ s v => s.toSi v
  | _, _, .conv _ e => Fm.says e
  | _, _, .add a b => Fm.says a + Fm.says b
  | _, _, .sub a b => Fm.says a - Fm.says b
  | _, _, .neg a => - Fm.says a
  | _, _, .scale k a => Nm.says k * Fm.says a
  | _, _, .divScalar a k => Fm.says a / Nm.says k
  | _, _, .mul a b => Fm.says a * Fm.says b
  | _, _, .div a b => Fm.says a / Fm.says b
  | _, _, .recip k a => Nm.says k / Fm.says a
noncomputable def Nm.says : Nm → ℝ
  | .const v => v
  | .ofQuantity e => Fm.says e
  | .toSi e => Fm.says e
  | .add a b => Nm.says a + Nm.says b
  | .mul a b => Nm.says a * Nm.says b
  | .div a b => Nm.says a / Nm.says b
end

mutual
/-- All units have positive factors, and nothing is added, negated or multiplied by a number while held in degrees
Celsius or Fahrenheit. -/
def Fm.Plain : {d : Dim} → {s : Scale} → Fm d s → Prop
  | _, _, .lit _ _ _ => True
  | _, _, .conv t e => t.Ok ∧ Fm.Plain e
  | _, s, .add a b => s.Ok ∧ s.Linear ∧ Fm.Plain a ∧ Fm.Plain b
  | _, s, .sub a b => s.Ok ∧ s.Linear ∧ Fm.Plain a ∧ Fm.Plain b
  | _, s, .neg a => s.Ok ∧ s.Linear ∧ Fm.Plain a
  | _, s, .scale k a => s.Ok ∧ s.Linear ∧ Nm.Plain k ∧ Fm.Plain a
  | _, s, .divScalar a k => s.Ok ∧ s.Linear ∧ Fm.Plain a ∧ Nm.Plain k
  | _, _, .mul a b => Fm.Plain a ∧ Fm.Plain b
  | _, _, .div a b => Fm.Plain a ∧ Fm.Plain b
  | _, _, .recip k a => Nm.Plain k ∧ Fm.Plain a
def Nm.Plain : Nm → Prop
  | .const _ => True
  | .ofQuantity e => Fm.Plain e
  | .toSi e => Fm.Plain e
  | .add a b => Nm.Plain a ∧ Nm.Plain b
  | .mul a b => Nm.Plain a ∧ Nm.Plain b
  | .div a b => Nm.Plain a ∧ Nm.Plain b
end

/-- **C154 in full**: every formula in units with positive factors has the value it says. -/
def C154_full : Prop := ∀ (d : Dim) (u : Unit) (e : Fm d u.scale), e.eval.toSi = e.says

/-! ## Proofs -/

mutual
theorem Fm.sound : ∀ {d : Dim} {s : Scale} (e : Fm d s), e.Plain → e.eval.toSi = e.says
  | _, _, .lit _ _ _, _ => by simp only [Fm.eval, Fm.says, Q.toSi]
  | _, _, .conv t e, h => by
    simp only [Fm.Plain] at h
    simp only [Fm.eval, Fm.says]
    rw [C61_conversion_preserves h.1, Fm.sound e h.2]
  | _, _, .add a b, h => by
    simp only [Fm.Plain] at h
    simp only [Fm.eval, Fm.says]
    rw [(C61_linear_partial h.2.1 h.1 a.eval a.eval b.eval 0).2.2.2.2.2.1, Fm.sound a h.2.2.1, Fm.sound b h.2.2.2]
  | _, _, .sub a b, h => by
    simp only [Fm.Plain] at h
    simp only [Fm.eval, Fm.says]
    rw [(C61_linear_partial h.2.1 h.1 a.eval a.eval b.eval 0).2.2.2.2.2.2, Fm.sound a h.2.2.1, Fm.sound b h.2.2.2]
  | _, _, .neg a, h => by
    simp only [Fm.Plain] at h
    simp only [Fm.eval, Fm.says]
    rw [(C61_linear_partial h.2.1 h.1 a.eval a.eval a.eval 0).2.2.2.2.1, Fm.sound a h.2.2]
  | _, _, .scale k a, h => by
    simp only [Fm.Plain] at h
    simp only [Fm.eval, Fm.says]
    rw [(C61_linear_partial h.2.1 h.1 a.eval a.eval a.eval _).2.2.1, Fm.sound a h.2.2.2, Nm.sound k h.2.2.1]
  | _, _, .divScalar a k, h => by
    simp only [Fm.Plain] at h
    simp only [Fm.eval, Fm.says]
    rw [(C61_linear_partial h.2.1 h.1 a.eval a.eval a.eval _).2.2.2.1, Fm.sound a h.2.2.1, Nm.sound k h.2.2.2]
  | _, _, .mul a b, h => by
    simp only [Fm.Plain] at h
    simp only [Fm.eval, Fm.says]
    rw [(C61_mul_div a.eval b.eval 0).1, Fm.sound a h.1, Fm.sound b h.2]
  | _, _, .div a b, h => by
    simp only [Fm.Plain] at h
    simp only [Fm.eval, Fm.says]
    rw [(C61_mul_div a.eval b.eval 0).2.1, Fm.sound a h.1, Fm.sound b h.2]
  | _, _, .recip k a, h => by
    simp only [Fm.Plain] at h
    simp only [Fm.eval, Fm.says]
    rw [(C61_mul_div a.eval a.eval _).2.2, Fm.sound a h.2, Nm.sound k h.1]
theorem Nm.sound : ∀ (k : Nm), k.Plain → k.eval = k.says
  | .const _, _ => by simp only [Nm.eval, Nm.says]
  | .ofQuantity e, h => by simp only [Nm.Plain] at h; simp only [Nm.eval, Nm.says]; exact Fm.sound e h
  | .toSi e, h => by simp only [Nm.Plain] at h; simp only [Nm.eval, Nm.says]; exact Fm.sound e h
  | .add a b, h => by simp only [Nm.Plain] at h; simp only [Nm.eval, Nm.says]; rw [Nm.sound a h.1, Nm.sound b h.2]
  | .mul a b, h => by simp only [Nm.Plain] at h; simp only [Nm.eval, Nm.says]; rw [Nm.sound a h.1, Nm.sound b h.2]
  | .div a b, h => by simp only [Nm.Plain] at h; simp only [Nm.eval, Nm.says]; rw [Nm.sound a h.1, Nm.sound b h.2]
end

/-- **C154 (partial).** A formula of any size, with its quantities in any units and freely converted, added in mixed units,
multiplied and divided, has exactly the physical value it says, and the numbers it yields are those it says; only sums,
multiples and negatives held in degrees Celsius or Fahrenheit are excluded. -/
theorem C154_partial {d : Dim} {s : Scale} (e : Fm d s) (h : e.Plain) : e.eval.toSi = e.says := Fm.sound e h

/-- **C154: numbers (partial).** -/
theorem C154_number_partial (k : Nm) (h : k.Plain) : k.eval = k.says := Nm.sound k h

/-- **C154: comparisons (partial).** Comparing two formulas of one dimension compares what they say, whatever their units;
so does comparing two in the same unit by their stored values. -/
theorem C154_compare_partial {d : Dim} {s t : Scale} (a : Fm d s) (b : Fm d t) (ha : a.Plain) (hb : b.Plain) :
    (a.eval.ltMixed b.eval ↔ a.says < b.says) ∧ (a.eval.leMixed b.eval ↔ a.says ≤ b.says) ∧
    (a.eval.beqMixed b.eval ↔ a.says = b.says) ∧
    ∀ (c : Fm d s), c.Plain → s.Ok → ((a.eval.lt c.eval ↔ a.says < c.says) ∧ (a.eval.le c.eval ↔ a.says ≤ c.says) ∧
      (a.eval.beq c.eval ↔ a.says = c.says)) := by
  simp only [Q.ltMixed, Q.leMixed, Q.beqMixed, Fm.sound a ha, Fm.sound b hb, true_and]
  intro c hc hs
  have := C61_compare hs a.eval c.eval
  rw [Fm.sound a ha, Fm.sound c hc] at this
  exact this

/-- **C154: the answer in a unit (partial).** Two formulas that say the same thing give, converted to one unit, the same
stored value. -/
theorem C154_unit_partial {d : Dim} {s t u : Scale} (a : Fm d s) (b : Fm d t) (ha : a.Plain) (hb : b.Plain)
    (h : a.says = b.says) : (a.eval.as u).value = (b.eval.as u).value := by
  simp only [Q.as]
  rw [Fm.sound a ha, Fm.sound b hb, h]

/-- **C154, violated**: twice 10 degrees Celsius is 20 degrees Celsius, though twice 283.15 K is not 293.15 K. -/
theorem C154_violated : ¬ C154_full := by
  intro h
  have := h Dim.Temperature .celsius (.scale (.const 2) (.lit _ _ 10))
  simp only [Fm.eval, Fm.says, Nm.eval, Nm.says, Q.toSi, Q.scale, Unit.scale, Scale.toSi] at this
  norm_num at this

/-- Kilometres per (metres per second) plus minutes, times the plain number `1 km / 500 m = 2`. -/
noncomputable def journey : Fm (Dim.Length / (Dim.Length / Dim.Time)) (divScale (.ratio 1000) (divScale (.ratio 1) (.ratio 1))) :=
  .scale (.ofQuantity (.div (.lit Dim.Length (.ratio 1000) 1) (.lit Dim.Length (.ratio 1) 500) : Fm (Dim.Length / Dim.Length) _))
    (.div (.lit Dim.Length (.ratio 1000) 3) (.div (.lit Dim.Length (.ratio 1) 10) (.lit Dim.Time (.ratio 1) 1)))

example : journey.Plain := by
  simp [journey, Fm.Plain, Nm.Plain, Scale.Linear, Scale.Ok, divScale]

example : journey.says = 600 := by
  simp [journey, Fm.says, Nm.says, Scale.toSi, Scale.getRatio]; norm_num

end Huira.Units
