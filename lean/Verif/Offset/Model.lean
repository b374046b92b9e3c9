import Mathlib.Algebra.Order.Field.Rat
import Mathlib.Algebra.Order.Field.Power
import Mathlib.Algebra.Order.Floor.Ring
import Mathlib.Data.Rat.Floor
import Mathlib.Data.Finset.Max
import Mathlib.Tactic.Linarith
import Mathlib.Tactic.Ring
import Mathlib.Tactic.NormNum
import Mathlib.Tactic.Positivity
import Mathlib.Tactic.FieldSimp
import Mathlib.Tactic.GCongr

/-!
# Model of the ray origin offset

Models `offset_intersection_` and its constants (`include/huira_impl/render/interaction.ipp` 15-141) on the bit level, for `float`
and `double`: a floating point number is its sign bit and its magnitude bits, the integer view is the two's complement number with
those bits.  `none` is signed integer overflow (undefined behaviour) or a cast out of range.
-/

namespace Huira.Offset

/-- `T` is `float` or `double`. -/
inductive Kind where
  | single
  | double

/-- Bits of the stored significand. -/
def Kind.p : Kind → ℕ
  | .single => 23
  | .double => 52
/-- Bits below the sign bit. -/
def Kind.w : Kind → ℕ
  | .single => 31
  | .double => 63
/-- Exponent of the least positive number. -/
def Kind.emin : Kind → ℤ
  | .single => -149
  | .double => -1074

/-- A floating point datum. -/
structure Bits where
  neg : Bool
  mag : ℕ
  deriving DecidableEq

/-- IEEE 754: the number with these magnitude bits (not for infinities and NaN). -/
def magVal (k : Kind) (m : ℕ) : ℚ :=
  if m / 2 ^ k.p = 0 then (m % 2 ^ k.p : ℕ) * 2 ^ k.emin
  else (2 ^ k.p + (m % 2 ^ k.p : ℕ)) * 2 ^ ((m / 2 ^ k.p : ℕ) - 1 + k.emin)

/-- The number a datum stands for. -/
def val (k : Kind) (b : Bits) : ℚ := if b.neg then -magVal k b.mag else magVal k b.mag

/-- The magnitude bits of infinity. -/
def infMag (k : Kind) : ℕ := 2 ^ k.w - 2 ^ k.p

/-- Neither infinity nor NaN. -/
def Finite (k : Kind) (b : Bits) : Prop := b.mag < infMag k

/-- IEEE 754 rounding to nearest, ties either way; nothing is said about results beyond the range of the format. -/
structure IsRnd (k : Kind) (rnd : ℚ → Bits) : Prop where
  fin : ∀ x y, Finite k y → |x| ≤ |val k y| → Finite k (rnd x)
  nearest : ∀ x y z, Finite k y → |x| ≤ |val k y| → Finite k z → |val k (rnd x) - x| ≤ |val k z - x|

/-- `origin` (`interaction.ipp` 15-23). -/
def origin : Kind → ℚ
  | .single => 1 / 32
  | .double => 1 / 64
/-- `float_scale` (`interaction.ipp` 30-38). -/
def floatScale : Kind → ℚ
  | .single => 1 / 65536
  | .double => 1 / 4294967296
/-- `int_scale` (`interaction.ipp` 45-53). -/
def intScale : Kind → ℚ
  | .single => 256
  | .double => 65536

/-- `float_as_int` (`interaction.ipp` 60-77). -/
def asInt (k : Kind) (b : Bits) : ℤ := if b.neg then (b.mag : ℤ) - 2 ^ k.w else b.mag

/-- `int_as_float` (`interaction.ipp` 84-103). -/
def ofInt (k : Kind) (i : ℤ) : Bits := if i < 0 then ⟨true, (i + 2 ^ k.w).toNat⟩ else ⟨false, i.toNat⟩

/-- A signed integer of the format's width. -/
def inRange (k : Kind) (i : ℤ) : Bool := -(2 ^ k.w) ≤ i ∧ i < 2 ^ k.w

/-- `static_cast<IntType>` of a floating point number: towards zero. -/
def castInt (k : Kind) (x : ℚ) : Option ℤ :=
  let i := if 0 ≤ x then ⌊x⌋ else ⌈x⌉
  if inRange k i then some i else none

/-- One coordinate of `offset_intersection_` (`interaction.ipp` 117-140). -/
def offset1 (k : Kind) (rnd : ℚ → Bits) (x n : Bits) : Option Bits := do
  let o ← castInt k (val k (rnd (intScale k * val k n)))
  let s := asInt k x + (if val k x < 0 then -o else o)
  if inRange k s then
    let r := ofInt k s
    pure (if |val k x| < origin k then rnd (val k x + val k (rnd (floatScale k * val k n))) else r)
  else none

/-- Three coordinates. -/
structure B3 where
  x : Bits
  y : Bits
  z : Bits

/-- `offset_intersection_` (`interaction.ipp` 116-141). -/
def offset (k : Kind) (rnd : ℚ → Bits) (p n : B3) : Option B3 := do
  let x ← offset1 k rnd p.x n.x
  let y ← offset1 k rnd p.y n.y
  let z ← offset1 k rnd p.z n.z
  pure ⟨x, y, z⟩

/-- `-normal`. -/
def B3.flip (n : B3) : B3 := ⟨⟨!n.x.neg, n.x.mag⟩, ⟨!n.y.neg, n.y.mag⟩, ⟨!n.z.neg, n.z.mag⟩⟩

/-- `glm::dot`; simplification: computed exactly. -/
def dot (k : Kind) (a b : B3) : ℚ := val k a.x * val k b.x + val k a.y * val k b.y + val k a.z * val k b.z

/-- The normal handed to the offset: turned to the side of the new direction (`renderer.ipp` 357-360, 408-411, 452-454;
`scene_view.ipp` 259-261, 278-281). -/
def faceNormal (k : Kind) (d n : B3) : B3 := if dot k d n < 0 then n.flip else n

end Huira.Offset
