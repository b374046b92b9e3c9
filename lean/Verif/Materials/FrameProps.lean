import Verif.Materials.SamplingModel
import Mathlib.Tactic

/-!
# Tangent frames (C60)
-/

set_option linter.unusedSimpArgs false
set_option linter.unusedVariables false

namespace Huira.Sampling
open V3

/-- Three mutually perpendicular unit vectors forming a right-handed system. -/
structure Orthonormal (t b n : V3) : Prop where
  tt : dot t t = 1
  bb : dot b b = 1
  nn : dot n n = 1
  tb : dot t b = 0
  tn : dot t n = 0
  bn : dot b n = 0
  right : cross t b = n

/-- **C60.**  For every unit normal — including the poles and both signed zeros — the frame is orthonormal and right handed. -/
theorem C60_tangent_frame (n : V3) (hn : dot n n = 1) (neg : Bool) (hneg : n.z < 0 → neg = true)
    (hpos : 0 < n.z → neg = false) :
    Orthonormal (tangentFrame n neg).1 (tangentFrame n neg).2 n := by
  obtain ⟨x, y, z⟩ := n
  simp only [dot] at hn hneg hpos
  cases neg
  · have hz : 0 ≤ z := by by_contra hc; exact absurd (hneg (not_le.mp hc)) (by simp)
    have h1 : (1 + z) ≠ 0 := by linarith
    have ha : -1 / (1 + z) * (1 + z) = -1 := by field_simp
    simp only [tangentFrame, Bool.false_eq_true, if_false]
    generalize -1 / (1 + z) = a at *
    constructor <;> simp only [dot, cross, V3.mk.injEq] <;> (try refine ⟨?_, ?_, ?_⟩) <;> grind
  · have hz : z ≤ 0 := by by_contra hc; exact absurd (hpos (not_le.mp hc)) (by simp)
    have h1 : (-1 + z) ≠ 0 := by linarith
    have ha : -1 / (-1 + z) * (-1 + z) = -1 := by field_simp
    simp only [tangentFrame, if_true]
    generalize -1 / (-1 + z) = a at *
    constructor <;> simp only [dot, cross, V3.mk.injEq] <;> (try refine ⟨?_, ?_, ?_⟩) <;> grind

/-- With an orthonormal frame the two conversions are inverse to each other and keep lengths and angles. -/
theorem C60_conversions {t b n : V3} (h : Orthonormal t b n) (d e : V3) :
    worldToLocal (localToWorld d t b n) t b n = d ∧ localToWorld (worldToLocal d t b n) t b n = d ∧
    dot (localToWorld d t b n) (localToWorld e t b n) = dot d e ∧
    dot (worldToLocal d t b n) (worldToLocal e t b n) = dot d e ∧ dot (localToWorld d t b n) n = d.z := by
  obtain ⟨tt, bb, nn, tb, tn, bn, right⟩ := h
  obtain ⟨t1, t2, t3⟩ := t
  obtain ⟨b1, b2, b3⟩ := b
  obtain ⟨n1, n2, n3⟩ := n
  obtain ⟨d1, d2, d3⟩ := d
  obtain ⟨e1, e2, e3⟩ := e
  simp only [cross, V3.mk.injEq] at right
  obtain ⟨r1, r2, r3⟩ := right
  simp only [dot] at tt bb nn tb tn bn
  -- the frame as a matrix is orthogonal on both sides
  have c11 : t1 * t1 + b1 * b1 + n1 * n1 = 1 := by grind
  have c22 : t2 * t2 + b2 * b2 + n2 * n2 = 1 := by grind
  have c33 : t3 * t3 + b3 * b3 + n3 * n3 = 1 := by grind
  have c12 : t1 * t2 + b1 * b2 + n1 * n2 = 0 := by grind
  have c13 : t1 * t3 + b1 * b3 + n1 * n3 = 0 := by grind
  have c23 : t2 * t3 + b2 * b3 + n2 * n3 = 0 := by grind
  refine ⟨?_, ?_, ?_, ?_, ?_⟩
  · simp only [worldToLocal, localToWorld, dot, V3.mk.injEq, add_x, add_y, add_z, hmul_x, hmul_y, hmul_z]
    refine ⟨?_, ?_, ?_⟩
    · linear_combination d1 * tt + d2 * tb + d3 * tn
    · linear_combination d1 * tb + d2 * bb + d3 * bn
    · linear_combination d1 * tn + d2 * bn + d3 * nn
  · ext <;> simp only [worldToLocal, localToWorld, dot, V3.mk.injEq, add_x, add_y, add_z, hmul_x, hmul_y, hmul_z]
    · linear_combination d1 * c11 + d2 * c12 + d3 * c13
    · linear_combination d1 * c12 + d2 * c22 + d3 * c23
    · linear_combination d1 * c13 + d2 * c23 + d3 * c33
  · simp only [localToWorld, dot, add_x, add_y, add_z, hmul_x, hmul_y, hmul_z]
    linear_combination d1 * e1 * tt + d2 * e2 * bb + d3 * e3 * nn + (d1 * e2 + d2 * e1) * tb + (d1 * e3 + d3 * e1) * tn +
      (d2 * e3 + d3 * e2) * bn
  · simp only [worldToLocal, dot]
    linear_combination d1 * e1 * c11 + d2 * e2 * c22 + d3 * e3 * c33 + (d1 * e2 + d2 * e1) * c12 +
      (d1 * e3 + d3 * e1) * c13 + (d2 * e3 + d3 * e2) * c23
  · simp only [localToWorld, dot, add_x, add_y, add_z, hmul_x, hmul_y, hmul_z]
    linear_combination d1 * tn + d2 * bn + d3 * nn

example : Orthonormal ⟨1, 0, 0⟩ ⟨0, 1, 0⟩ ⟨0, 0, 1⟩ := by
  constructor <;> simp [dot, cross]

end Huira.Sampling
