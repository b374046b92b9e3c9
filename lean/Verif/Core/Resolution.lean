import Verif.Num.Rounding
import Mathlib.Tactic.Linarith
import Mathlib.Tactic.NormNum

/-!
# Resolutions

Models `struct Resolution` of `include/huira/core/types.hpp` 126-208: an object with the members `width` and `height`, and the
members `x` and `y` of type `int&`, which the constructors bind to the object's own `width` and `height`. A reference cannot be
bound again, so a copy whose `x` was bound to the `width` of the original would follow the original from then on, and be left
dangling when the original goes. The model keeps the references as addresses of cells, lets an allocator use an address again
after its object has gone, and has undefined behaviour (`none`) for a use of a reference whose cell has gone.

Arithmetic on `int` and on the floating types is that of `Num/Rounding`: an operation is the exact one followed by a rounding.
Not modelled: division by zero (infinities), overflow of the floating types.
-/

set_option linter.unusedSimpArgs false
set_option linter.unusedVariables false

namespace Huira.Core.Resolution

/-- The address of an `int` member: the object's address and which member (`false`: `width`, `true`: `height`) (types.hpp 147-148). -/
abbrev Cell := Nat × Bool

/-- The members of a `Resolution` (types.hpp 147-151). -/
structure Obj where
  width : Int
  height : Int
  x : Cell
  y : Cell

/-- The resolutions that exist, by address. -/
abbrev Heap := Nat → Option Obj

/-- `h` with the object at `a` replaced. -/
def Heap.put (h : Heap) (a : Nat) (o : Option Obj) : Heap := fun b => if b = a then o else h b

/-- Reading an `int` through a reference: undefined (`none`) when the object it is part of has gone. -/
def Heap.read (h : Heap) (c : Cell) : Option Int := (h c.1).map fun o => if c.2 then o.height else o.width

/-- Writing an `int` through a reference. -/
def Heap.write (h : Heap) (c : Cell) (v : Int) : Option Heap :=
  (h c.1).map fun o => h.put c.1 (some (if c.2 then { o with height := v } else { o with width := v }))

/-- `Resolution(int w, int h)` (types.hpp 127): `x(width), y(height)`. -/
def construct (a : Nat) (w h : Int) : Obj := ⟨w, h, (a, false), (a, true)⟩

/-- `Resolution(const Resolution& other)` (types.hpp 129-132). -/
def copyConstruct (a : Nat) (other : Obj) : Obj := ⟨other.width, other.height, (a, false), (a, true)⟩

/-- `operator=` (types.hpp 134-144), one statement after the other; `x = width` writes through the reference. -/
def assign (h : Heap) (a b : Nat) : Option Heap :=
  if a = b then some h else do
    let o ← h b
    let h ← h.write (a, false) o.width
    let o ← h b
    let h ← h.write (a, true) o.height
    let t ← h a
    let h ← h.write t.x t.width
    let t ← h a
    h.write t.y t.height

/-- What a program does with resolutions. -/
inductive Op
  /-- `Resolution r{w, h}` at the address `a` -/
  | make (a : Nat) (w h : Int)
  /-- `Resolution r(other)`, a parameter or result by value, a member of an object being copied -/
  | copy (a src : Nat)
  /-- `dst = src` -/
  | assign (dst src : Nat)
  /-- `r.width = v`, `r.height = v`, `r.x = v`, `r.y = v` -/
  | setWidth (a : Nat) (v : Int)
  | setHeight (a : Nat) (v : Int)
  | setX (a : Nat) (v : Int)
  | setY (a : Nat) (v : Int)
  /-- the end of `r`'s lifetime -/
  | destroy (a : Nat)

/-- One operation. An address in use is not handed out again, and a program names only objects that exist: other operations do
nothing. `none` is undefined behaviour. -/
def step (h : Heap) : Op → Option Heap
  | .make a w t => if (h a).isSome then some h else some (h.put a (some (construct a w t)))
  | .copy a src => match h src with
    | none => some h
    | some o => if (h a).isSome then some h else some (h.put a (some (copyConstruct a o)))
  | .assign dst src => if (h dst).isSome ∧ (h src).isSome then Resolution.assign h dst src else some h
  | .setWidth a v => if (h a).isSome then h.write (a, false) v else some h
  | .setHeight a v => if (h a).isSome then h.write (a, true) v else some h
  | .setX a v => match h a with
    | none => some h
    | some o => h.write o.x v
  | .setY a v => match h a with
    | none => some h
    | some o => h.write o.y v
  | .destroy a => some (h.put a none)

/-- A history of operations. -/
def run (h : Heap) : List Op → Option Heap
  | [] => some h
  | op :: ops => (step h op).bind fun h => run h ops

/-! ## Specification: pairs of numbers -/

/-- The values of the resolutions that exist. -/
abbrev Values := Nat → Option (Int × Int)

/-- What each operation should do, with resolutions being plain pairs. -/
def specStep (s : Values) : Op → Values
  | .make a w t => fun b => if b = a ∧ s a = none then some (w, t) else s b
  | .copy a src => fun b => if b = a ∧ s a = none then s src else s b
  | .assign dst src => fun b => if b = dst ∧ s dst ≠ none ∧ s src ≠ none then s src else s b
  | .setWidth a v => fun b => if b = a then (s b).map fun p => (v, p.2) else s b
  | .setX a v => fun b => if b = a then (s b).map fun p => (v, p.2) else s b
  | .setHeight a v => fun b => if b = a then (s b).map fun p => (p.1, v) else s b
  | .setY a v => fun b => if b = a then (s b).map fun p => (p.1, v) else s b
  | .destroy a => fun b => if b = a then none else s b

/-- The values after a history. -/
def specRun (ops : List Op) : Values := ops.foldl specStep fun _ => none

/-- What a program reads of the resolution at `a`: `width`, `height`, `x`, `y`. -/
def Heap.shown (h : Heap) (a : Nat) : Option (Int × Int × Option Int × Option Int) :=
  (h a).map fun o => (o.width, o.height, h.read o.x, h.read o.y)

/-! ## Proof -/

/-- Every object's references are to its own members. -/
def Good (h : Heap) : Prop := ∀ a o, h a = some o → o.x = (a, false) ∧ o.y = (a, true)

/-- The pair of an object. -/
def Obj.pair (o : Obj) : Int × Int := (o.width, o.height)

/-- The heap stands for the values. -/
def Rel (h : Heap) (s : Values) : Prop := Good h ∧ ∀ a, s a = (h a).map Obj.pair

theorem good_put {h : Heap} (hg : Good h) (a : Nat) (o : Obj) (hx : o.x = (a, false)) (hy : o.y = (a, true)) :
    Good (h.put a (some o)) := by
  intro b p hb
  unfold Heap.put at hb
  split at hb
  · rename_i hab
    cases hb
    exact ⟨by rw [hx, hab], by rw [hy, hab]⟩
  · exact hg b p hb

theorem write_spec {h : Heap} (hg : Good h) {a : Nat} {o : Obj} (ho : h a = some o) (k : Bool) (v : Int) :
    ∃ h', h.write (a, k) v = some h' ∧ Good h' ∧ h' a = some (if k then { o with height := v } else { o with width := v }) ∧
      ∀ b, b ≠ a → h' b = h b := by
  refine ⟨h.put a (some (if k then { o with height := v } else { o with width := v })), by simp [Heap.write, ho], ?_, by simp [Heap.put], ?_⟩
  · refine good_put hg a _ ?_ ?_
    · cases k <;> simp [(hg a o ho).1]
    · cases k <;> simp [(hg a o ho).2]
  · intro b hb
    simp [Heap.put, hb]

theorem step_rel {h : Heap} {s : Values} (hr : Rel h s) (op : Op) : ∃ h', step h op = some h' ∧ Rel h' (specStep s op) := by
  obtain ⟨hg, hs⟩ := hr
  have hw : ∀ (a : Nat) (k : Bool) (v : Int) (o : Obj), h a = some o → ∃ h', h.write (a, k) v = some h' ∧
      Rel h' (fun b => if b = a then (s b).map fun p => if k then (p.1, v) else (v, p.2) else s b) := by
    intro a k v o ho
    obtain ⟨h', h1, h2, h3, h4⟩ := write_spec hg ho k v
    refine ⟨h', h1, h2, fun b => ?_⟩
    by_cases hb : b = a
    · subst hb
      cases k <;> simp [h3, hs, ho, Obj.pair]
    · simp [hb, h4 b hb, hs]
  cases op with
  | make a w t =>
    rw [step]
    cases ha : h a with
    | some o =>
      refine ⟨h, by simp_all, hg, fun b => ?_⟩
      simp [specStep, hs, ha]
    | none =>
      refine ⟨h.put a (some (construct a w t)), by simp_all, good_put hg a _ rfl rfl, fun b => ?_⟩
      by_cases hb : b = a <;> simp [specStep, hs, ha, hb, Heap.put, construct, Obj.pair]
  | copy a src =>
    rw [step]
    cases hsrc : h src with
    | none =>
      refine ⟨h, by simp_all, hg, fun b => ?_⟩
      by_cases hb : b = a
      · subst hb
        cases ha : h b <;> simp [specStep, hs, hsrc, ha]
      · simp [specStep, hs, hb]
    | some o =>
      cases ha : h a with
      | some p =>
        refine ⟨h, by simp_all, hg, fun b => ?_⟩
        simp [specStep, hs, ha]
      | none =>
        refine ⟨h.put a (some (copyConstruct a o)), by simp_all, good_put hg a _ rfl rfl, fun b => ?_⟩
        by_cases hb : b = a <;> simp [specStep, hs, ha, hsrc, hb, Heap.put, copyConstruct, Obj.pair]
  | assign dst src =>
    rw [step]
    cases hd : h dst with
    | none =>
      refine ⟨h, by simp_all, hg, fun b => ?_⟩
      simp [specStep, hs, hd]
    | some d =>
      cases hsrc : h src with
      | none =>
        refine ⟨h, by simp_all, hg, fun b => ?_⟩
        simp [specStep, hs, hsrc]
      | some o =>
        unfold Resolution.assign
        by_cases hab : dst = src
        · refine ⟨h, by simp [hab, hd, hsrc], hg, fun b => ?_⟩
          subst hab
          by_cases hb : b = dst <;> simp [specStep, hs, hb]
        · have hne : src ≠ dst := fun e => hab e.symm
          obtain ⟨h1, e1, g1, a1, o1⟩ := write_spec hg hd false o.width
          obtain ⟨h2, e2, g2, a2, o2⟩ := write_spec g1 a1 true o.height
          have x2 := (g2 dst _ a2).1
          obtain ⟨h3, e3, g3, a3, o3⟩ := write_spec g2 a2 false o.width
          have y3 := (g3 dst _ a3).2
          obtain ⟨h4, e4, g4, a4, o4⟩ := write_spec g3 a3 true o.height
          simp at x2 y3 a1 a2 a3 a4
          refine ⟨h4, ?_, g4, fun b => ?_⟩
          · simp [hd, hab, hsrc, e1, o1 src hne, e2, a2, x2, e3, a3, y3, e4]
          · by_cases hb : b = dst
            · subst hb
              simp [specStep, hs, hd, hsrc, a4, Obj.pair]
            · simp [specStep, hs, hb, o4 b hb, o3 b hb, o2 b hb, o1 b hb]
  | setWidth a v =>
    cases ha : h a with
    | none =>
      refine ⟨h, by simp [step, ha], hg, fun b => ?_⟩
      by_cases hb : b = a <;> simp [specStep, hs, ha, hb]
    | some o => simpa [step, ha, specStep] using hw a false v o ha
  | setHeight a v =>
    cases ha : h a with
    | none =>
      refine ⟨h, by simp [step, ha], hg, fun b => ?_⟩
      by_cases hb : b = a <;> simp [specStep, hs, ha, hb]
    | some o => simpa [step, ha, specStep] using hw a true v o ha
  | setX a v =>
    cases ha : h a with
    | none =>
      refine ⟨h, by simp [step, ha], hg, fun b => ?_⟩
      by_cases hb : b = a <;> simp [specStep, hs, ha, hb]
    | some o => simpa [step, ha, specStep, (hg a o ha).1] using hw a false v o ha
  | setY a v =>
    cases ha : h a with
    | none =>
      refine ⟨h, by simp [step, ha], hg, fun b => ?_⟩
      by_cases hb : b = a <;> simp [specStep, hs, ha, hb]
    | some o => simpa [step, ha, specStep, (hg a o ha).2] using hw a true v o ha
  | destroy a =>
    refine ⟨h.put a none, rfl, ?_, fun b => ?_⟩
    · intro b o hb
      unfold Heap.put at hb
      split at hb
      · cases hb
      · exact hg b o hb
    · by_cases hb : b = a <;> simp [specStep, hs, hb, Heap.put]

theorem run_rel (ops : List Op) : ∀ {h : Heap} {s : Values}, Rel h s → ∃ h', run h ops = some h' ∧ Rel h' (ops.foldl specStep s) := by
  induction ops with
  | nil => intro h s hr; exact ⟨h, rfl, hr⟩
  | cons op ops ih =>
    intro h s hr
    obtain ⟨h1, e1, r1⟩ := step_rel hr op
    obtain ⟨h2, e2, r2⟩ := ih r1
    exact ⟨h2, by simp [run, e1, e2], r2⟩

/-- C161: through every history of making, copying, assigning, writing (by either name) and destroying resolutions, with memory
used again, there is no undefined behaviour, each resolution holds what its own history says, and `x` and `y` read the same
numbers as `width` and `height`. -/
theorem C161_values (ops : List Op) :
    ∃ h, run (fun _ => none) ops = some h ∧
      ∀ a, h.shown a = (specRun ops a).map fun p => (p.1, p.2, some p.1, some p.2) := by
  obtain ⟨h, e, hg, hs⟩ := run_rel ops (h := fun _ => none) (s := fun _ => none) ⟨fun a o ho => (by cases ho), fun a => rfl⟩
  refine ⟨h, e, fun a => ?_⟩
  unfold specRun
  rw [hs a]
  unfold Heap.shown
  cases ha : h a with
  | none => rfl
  | some o =>
    obtain ⟨hx, hy⟩ := hg a o ha
    simp [hx, hy, Heap.read, ha, Obj.pair]

/-- The object an operation may change. -/
def Op.target : Op → Nat
  | .make a _ _ | .copy a _ | .assign a _ | .setWidth a _ | .setHeight a _ | .setX a _ | .setY a _ | .destroy a => a

/-- C161: whatever is done to other resolutions, the original or the copies of this one included, this one keeps its value. -/
theorem C161_independent (before after : List Op) (a : Nat) (hn : ∀ op ∈ after, op.target ≠ a) :
    ∃ h h', run (fun _ => none) before = some h ∧ run (fun _ => none) (before ++ after) = some h' ∧ h'.shown a = h.shown a := by
  obtain ⟨h, e, hh⟩ := C161_values before
  obtain ⟨h', e', hh'⟩ := C161_values (before ++ after)
  refine ⟨h, h', e, e', ?_⟩
  rw [hh, hh']
  congr 1
  unfold specRun
  rw [List.foldl_append]
  generalize before.foldl specStep (fun _ => none) = s
  clear hh hh' e e' h h'
  induction after generalizing s with
  | nil => rfl
  | cons op ops ih =>
    rw [List.foldl_cons, ih fun o ho => hn o (List.mem_cons_of_mem _ ho)]
    have hne : a ≠ op.target := fun e => hn op List.mem_cons_self e.symm
    cases op <;> simp_all [specStep, Op.target]

/-- C161: a fresh copy and the target of an assignment show the original's value, whatever happens to the original then. -/
theorem C161_copy (before : List Op) (a src : Nat) (w t : Int) (after : List Op) (hs : specRun before src = some (w, t))
    (ha : specRun before a = none) (hn : ∀ op ∈ after, op.target ≠ a) :
    ∃ h, run (fun _ => none) (before ++ .copy a src :: after) = some h ∧ h.shown a = some (w, t, some w, some t) := by
  obtain ⟨h, h', e, e', hh⟩ := C161_independent (before ++ [.copy a src]) after a hn
  obtain ⟨h'', e'', hv⟩ := C161_values (before ++ [.copy a src])
  rw [e] at e''
  cases e''
  refine ⟨h', by simpa using e', ?_⟩
  rw [hh, hv]
  have : specRun (before ++ [.copy a src]) a = some (w, t) := by
    unfold specRun at hs ha ⊢
    simp [List.foldl_append, specStep, ha, hs]
  simp [this]

theorem C161_assign (before : List Op) (a src : Nat) (w t : Int) (after : List Op) (hs : specRun before src = some (w, t))
    (ha : specRun before a ≠ none) (hn : ∀ op ∈ after, op.target ≠ a) :
    ∃ h, run (fun _ => none) (before ++ .assign a src :: after) = some h ∧ h.shown a = some (w, t, some w, some t) := by
  obtain ⟨h, h', e, e', hh⟩ := C161_independent (before ++ [.assign a src]) after a hn
  obtain ⟨h'', e'', hv⟩ := C161_values (before ++ [.assign a src])
  rw [e] at e''
  cases e''
  refine ⟨h', by simpa using e', ?_⟩
  rw [hh, hv]
  have : specRun (before ++ [.assign a src]) a = some (w, t) := by
    unfold specRun at hs ha ⊢
    simp [List.foldl_append, specStep, ha, hs]
  simp [this]

/-- A copy survives the original, whose memory is used again. -/
example : ∃ h, run (fun _ => none) [.make 0 1920 1080, .copy 1 0, .setX 0 7, .destroy 0, .make 0 3 4, .setY 1 9] = some h ∧
    h.shown 1 = some (1920, 9, some 1920, some 9) ∧ h.shown 0 = some (3, 4, some 3, some 4) := by
  obtain ⟨h, e, hv⟩ := C161_values [.make 0 1920 1080, .copy 1 0, .setX 0 7, .destroy 0, .make 0 3 4, .setY 1 9]
  exact ⟨h, e, by rw [hv]; simp [specRun, specStep], by rw [hv]; simp [specRun, specStep]⟩

example : ∃ h, run (fun _ => none) ([.make 0 5 6, .make 1 7 8] ++ .assign 1 0 :: [.setX 0 1, .destroy 0]) = some h ∧
    h.shown 1 = some (5, 6, some 5, some 6) :=
  C161_assign [.make 0 5 6, .make 1 7 8] 1 0 5 6 [.setX 0 1, .destroy 0] (by simp [specRun, specStep]) (by simp [specRun, specStep])
    (by simp [Op.target])

example : ∃ h, run (fun _ => none) ([.make 0 5 6] ++ .copy 1 0 :: [.setX 0 1, .destroy 0]) = some h ∧
    h.shown 1 = some (5, 6, some 5, some 6) :=
  C161_copy [.make 0 5 6] 1 0 5 6 [.setX 0 1, .destroy 0] (by simp [specRun, specStep]) (by simp [specRun, specStep]) (by simp [Op.target])

/-! ## Arithmetic -/

open Huira.Num

/-- The operand types: their rounding, `static_cast` from `int` included (numeric_concepts.hpp `IsFloatingPoint`). -/
structure FloatType where
  fl : ℚ → ℚ

/-- The operands of an operator with a resolution: a vector or a number (types.hpp 153-177, 183-206). -/
inductive Operand
  | vec (x y : ℚ)
  | num (s : ℚ)

def Operand.x : Operand → ℚ
  | .vec x _ => x
  | .num s => s

def Operand.y : Operand → ℚ
  | .vec _ y => y
  | .num s => s

/-- `res * v`, `res * s` (types.hpp 153-163). -/
def resMul (T : FloatType) (w h : Int) : Operand → ℚ × ℚ
  | .vec x y => (T.fl (x * T.fl w), T.fl (y * T.fl h))
  | .num s => (T.fl (T.fl w * s), T.fl (T.fl h * s))

/-- `v * res`, `s * res` (types.hpp 183-194). -/
def mulRes (T : FloatType) (w h : Int) : Operand → ℚ × ℚ
  | .vec x y => (T.fl (x * T.fl w), T.fl (y * T.fl h))
  | .num s => (T.fl (T.fl w * s), T.fl (T.fl h * s))

/-- `res / v`, `res / s` (types.hpp 165-175): computed in the operand's type, and returned as `Vec2<float>`; `f32` is the
rounding to `float`. -/
def resDiv (f32 : ℚ → ℚ) (T : FloatType) (w h : Int) : Operand → ℚ × ℚ
  | .vec x y => (f32 (T.fl (T.fl w / x)), f32 (T.fl (T.fl h / y)))
  | .num s => (f32 (T.fl (T.fl w / s)), f32 (T.fl (T.fl h / s)))

/-- `v / res`, `s / res` (types.hpp 196-206). -/
def divRes (T : FloatType) (w h : Int) : Operand → ℚ × ℚ
  | .vec x y => (T.fl (x / T.fl w), T.fl (y / T.fl h))
  | .num s => (T.fl (T.fl w / s), T.fl (T.fl h / s))

/-- Componentwise arithmetic in the operand's type: the left operand `l`, the operation and the right operand `r`. -/
def Componentwise (T : FloatType) (op : ℚ → ℚ → ℚ) (l r result : ℚ × ℚ) : Prop :=
  result = (T.fl (op l.1 r.1), T.fl (op l.2 r.2))

/-- The resolution as the two numbers of the operand's type. -/
def sizes (T : FloatType) (w h : Int) : ℚ × ℚ := (T.fl w, T.fl h)

/-- An operand as two numbers. -/
def Operand.both (v : Operand) : ℚ × ℚ := (v.x, v.y)

/-- C162 in full: each operator is the componentwise operation of its left operand on its right one, in the operand's type. -/
def C162_full (f32 : ℚ → ℚ) (T : FloatType) : Prop :=
  ∀ (w h : Int) (v : Operand),
    Componentwise T (· * ·) (sizes T w h) v.both (resMul T w h v) ∧
    Componentwise T (· * ·) v.both (sizes T w h) (mulRes T w h v) ∧
    Componentwise T (· / ·) (sizes T w h) v.both (resDiv f32 T w h v) ∧
    Componentwise T (· / ·) v.both (sizes T w h) (divRes T w h v)

/-- A type as wide as `double`: every number of at most 53 bits is exact. -/
def Wide (T : FloatType) : Prop := ∀ n k : ℤ, |n| ≤ 2 ^ 53 → T.fl (n * 2 ^ k) = n * 2 ^ k

theorem Wide.int {T : FloatType} (h : Wide T) (n : ℤ) (hn : |n| ≤ 2 ^ 53) : T.fl n = n := by simpa using h n 0 hn

/-- C162: the products are componentwise and commute, for every type. -/
theorem C162_products_partial (T : FloatType) (w h : Int) (v : Operand) :
    Componentwise T (· * ·) (sizes T w h) v.both (resMul T w h v) ∧
    Componentwise T (· * ·) v.both (sizes T w h) (mulRes T w h v) ∧ resMul T w h v = mulRes T w h v := by
  cases v <;> simp [Componentwise, sizes, Operand.both, Operand.x, Operand.y, resMul, mulRes, mul_comm]

/-- C162: the quotients by vectors and numbers are componentwise for `float`, and a vector by a resolution for every type. -/
theorem C162_quotients_partial (f32 : ℚ → ℚ) (hf : IsRounding f32) (T : FloatType) (w h : Int) (v : Operand) (x y : ℚ) :
    Componentwise ⟨f32⟩ (· / ·) (sizes ⟨f32⟩ w h) v.both (resDiv f32 ⟨f32⟩ w h v) ∧
    Componentwise T (· / ·) (x, y) (sizes T w h) (divRes T w h (.vec x y)) := by
  have hi : ∀ q, f32 (f32 q) = f32 q := fun q => hf.exact (hf.repr q)
  constructor
  · cases v <;> simp [Componentwise, sizes, Operand.both, Operand.x, Operand.y, resDiv, hi]
  · simp [Componentwise, sizes, divRes]

/-- C162: for wider types a quotient by a vector or number is the componentwise one rounded to `float`, so off by at most one
part in 2^24. -/
theorem C162_narrowed_partial (f32 : ℚ → ℚ) (hf : IsRounding f32) (T : FloatType) (w h : Int) (v : Operand) :
    |(resDiv f32 T w h v).1 - T.fl (T.fl w / v.x)| ≤ |T.fl (T.fl w / v.x)| / 2 ^ 24 ∧
    |(resDiv f32 T w h v).2 - T.fl (T.fl h / v.y)| ≤ |T.fl (T.fl h / v.y)| / 2 ^ 24 := by
  cases v <;> exact ⟨hf.rel _, hf.rel _⟩

/-- C162 is violated: a number divided by a resolution is the resolution divided by the number. -/
theorem C162_violated_number (T : FloatType) (w h : Int) (s : ℚ) :
    Componentwise T (· / ·) (sizes T w h) (Operand.num s).both (divRes T w h (.num s)) := by
  simp [Componentwise, sizes, Operand.both, Operand.x, Operand.y, divRes]

/-- No number of 24 bits is 2^24 + 1. -/
theorem not_representable : ¬ Representable (16777217 : ℚ) := by
  rintro ⟨n, k, hn, he⟩
  rcases le_or_gt k 0 with hk | hk
  · obtain ⟨m, rfl⟩ : ∃ m : ℕ, k = -(m : ℤ) := ⟨k.natAbs, by omega⟩
    have h1 : (2 : ℚ) ^ (-(m : ℤ)) ≤ 1 := by
      rw [zpow_neg, zpow_natCast]
      exact inv_le_one_of_one_le₀ (one_le_pow₀ (by norm_num))
    have h0 : (0 : ℚ) ≤ 2 ^ (-(m : ℤ)) := by positivity
    have h2 : (n : ℚ) ≤ 16777216 := by exact_mod_cast (abs_le.mp hn).2
    nlinarith
  · obtain ⟨m, rfl⟩ : ∃ m : ℕ, k = (m : ℤ) + 1 := ⟨(k - 1).toNat, by omega⟩
    have : (16777217 : ℤ) = n * 2 ^ (m + 1) := by
      have h3 : (16777217 : ℚ) = n * 2 ^ (m + 1) := by rw [he]; norm_cast
      exact_mod_cast h3
    rw [pow_succ, ← mul_assoc] at this
    omega

/-- C162 is violated for every type as wide as `double`, by a number over a resolution and by a resolution over a number. -/
theorem C162_violated (f32 : ℚ → ℚ) (hf : IsRounding f32) (T : FloatType) (hT : Wide T) :
    ¬ C162_full f32 T ∧
    ¬ Componentwise T (· / ·) (2, 2) (sizes T 4 4) (divRes T 4 4 (.num 2)) ∧
    ¬ Componentwise T (· / ·) (sizes T 16777217 1) (1, 1) (resDiv f32 T 16777217 1 (.num 1)) := by
  have h4 : T.fl 4 = 4 := by simpa using hT.int 4 (by norm_num)
  have h2 : T.fl 2 = 2 := by simpa using hT.int 2 (by norm_num)
  have h1 : T.fl (1 / 2) = 1 / 2 := by simpa using hT 1 (-1) (by norm_num)
  have hb : T.fl 16777217 = 16777217 := by simpa using hT.int 16777217 (by norm_num)
  have hd : ¬ Componentwise T (· / ·) (2, 2) (sizes T 4 4) (divRes T 4 4 (.num 2)) := by
    intro hc
    have := congrArg Prod.fst hc
    simp [sizes, divRes, h4] at this
    norm_num at this
    rw [h2, h1] at this
    norm_num at this
  refine ⟨fun hc => hd (hc 4 4 (.num 2)).2.2.2, hd, fun hc => ?_⟩
  have := congrArg Prod.fst hc
  simp [sizes, resDiv, hb] at this
  exact not_representable (by rw [← this]; exact hf.repr _)

/-- A type as wide as `double` exists: exact numbers. -/
example : Wide ⟨id⟩ := fun _ _ _ => rfl

example : ¬ C162_full float32 ⟨id⟩ := (C162_violated float32 float32_exists ⟨id⟩ fun _ _ _ => rfl).1

example : divRes ⟨id⟩ 1920 1080 (.num 2) = (960, 540) := by simp [divRes]; norm_num

end Huira.Core.Resolution
