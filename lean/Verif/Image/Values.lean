import Mathlib.Tactic.Linarith
import Mathlib.Tactic.Ring
import Mathlib.Algebra.Order.Ring.Nat
import Mathlib.Algebra.Order.Ring.Int
/-!
# Images as values (C142)

Models the constructors, copies, moves and whole-image operations of `Image` (`include/huira_impl/images/image.ipp` 15-75,
81-85, 136-140, 276-300, 516-567, 577-581; `include/huira/images/image.hpp` 68-152) in a program with any number of image
variables: the defaulted copy and move operations of image.hpp 80-83 act member by member, and a moved-from `std::vector` is
empty.

Simplifications: allocation succeeds whenever the requested number of elements is not negative (converted to `size_t`, a negative
number is more than any vector can hold); `int` has 32 bits.
-/

set_option linter.unusedSimpArgs false
set_option linter.unusedVariables false

namespace Huira.ImageValues

/-- What a call does: it returns, throws, or is undefined behaviour. -/
inductive R (α : Type)
  | ok (a : α)
  | throw
  | ub

/-- `Image`: `data_`, `resolution_`, `sensor_bit_depth_` (image.hpp 138-142). -/
structure Img (P : Type) where
  data : List P
  width : ℤ
  height : ℤ
  bits : ℤ

/-- `Image()` (image.ipp 16-19). -/
def Img.empty {P : Type} : Img P := ⟨[], 0, 0, 0⟩

/-- `static_cast<std::size_t>(width * height)` and the allocation (image.ipp 30, 45, 59, 74). -/
def alloc (w h : ℤ) : R ℕ :=
  if w * h < -2147483648 ∨ 2147483647 < w * h then .ub
  else if w * h < 0 then .throw else .ok (w * h).toNat

/-- `Image(width, height, fill_value)` (image.ipp 71-75; the other constructors, 28-61, pass through the same product; without
fill value the pixels are `PixelT{}`). -/
def construct {P : Type} (w h : ℤ) (p : P) : R (Img P) :=
  match alloc w h with
  | .ok n => .ok ⟨List.replicate n p, w, h, 0⟩
  | .throw => .throw
  | .ub => .ub

/-- Indexing `data_` with a signed number converted to `size_t`. -/
def index {P : Type} (i : Img P) (k : ℤ) : R ℕ := if 0 ≤ k ∧ k < i.data.length then .ok k.toNat else .ub

/-- `at(x, y)` (image.ipp 276-300): the element addressed. -/
def at2 {P : Type} (i : Img P) (x y : ℤ) : R ℕ :=
  if x ≥ i.width ∨ y ≥ i.height then .throw else index i (y * i.width + x)

/-- Reading through `at(x, y)`. -/
def Img.get {P : Type} (i : Img P) (x y : ℤ) : R P :=
  match at2 i x y with
  | .ok k => match i.data[k]? with
    | some p => .ok p
    | none => .ub
  | .throw => .throw
  | .ub => .ub

/-- The loop of `operator+` (image.ipp 541-543): `other[i]` past the end of `other` is undefined. -/
def sums {P : Type} [Add P] : List P → List P → Option (List P)
  | [], _ => some []
  | _ :: _, [] => none
  | a :: l, b :: m => (sums l m).map fun r => (a + b) :: r

/-- `operator+` (image.ipp 533-546); the output starts as `PixelT{}` everywhere and has no sensor bit depth. -/
def Img.add {P : Type} [Zero P] [Add P] (a b : Img P) : R (Img P) :=
  if a.width ≠ b.width ∨ a.height ≠ b.height then .throw
  else match alloc a.width a.height with
    | .ok n =>
      if n < a.data.length then .ub
      else match sums a.data b.data with
        | some l => .ok ⟨l ++ List.replicate (n - a.data.length) 0, a.width, a.height, 0⟩
        | none => .ub
    | .throw => .throw
    | .ub => .ub

/-- Statements of a program with image variables. -/
inductive Op (P : Type)
  /-- `v = Image(w, h, p)` -/
  | make (v : ℕ) (w h : ℤ) (p : P)
  /-- `v = u` -/
  | copy (v u : ℕ)
  /-- `v = std::move(u)` -/
  | move (v u : ℕ)
  /-- `v.clear()` -/
  | clear (v : ℕ)
  /-- `v.fill(p)` -/
  | fill (v : ℕ) (p : P)
  /-- `v = a + b` -/
  | add (v a b : ℕ)
  /-- `v.at(x, y) = p` -/
  | write (v : ℕ) (x y : ℤ) (p : P)
  /-- `v.set_sensor_bit_depth(n)` -/
  | bits (v : ℕ) (n : ℤ)

/-- The variables. -/
abbrev State (P : Type) := ℕ → Img P

/-- Assignment to a variable. -/
def put {β : Type} (s : ℕ → β) (v : ℕ) (b : β) : ℕ → β := fun k => if k = v then b else s k

/-- A statement; the flag says that it threw (and changed nothing).  Copies and moves are the defaulted ones (image.hpp 80-83). -/
def step {P : Type} [Zero P] [Add P] (s : State P) : Op P → R (State P × Bool)
  | .make v w h p => match construct w h p with
    | .ok i => .ok (put s v i, false)
    | .throw => .ok (s, true)
    | .ub => .ub
  | .copy v u => .ok (put s v (s u), false)
  | .move v u => .ok (put (put s v (s u)) u { s u with data := [] }, false)
  | .clear v => .ok (put s v { s v with data := [], width := 0, height := 0 }, false)
  | .fill v p => .ok (put s v { s v with data := List.replicate (s v).data.length p }, false)
  | .add v a b => match (s a).add (s b) with
    | .ok i => .ok (put s v i, false)
    | .throw => .ok (s, true)
    | .ub => .ub
  | .write v x y p => match at2 (s v) x y with
    | .ok k => .ok (put s v { s v with data := (s v).data.set k p }, false)
    | .throw => .ok (s, true)
    | .ub => .ub
  | .bits v n => .ok (put s v { s v with bits := n }, false)

/-- A program: the variables at its end and which statements threw. -/
def run {P : Type} [Zero P] [Add P] (s : State P) : List (Op P) → R (State P × List Bool)
  | [] => .ok (s, [])
  | o :: l => match step s o with
    | .ok (s', t) => match run s' l with
      | .ok (s'', ts) => .ok (s'', t :: ts)
      | .throw => .throw
      | .ub => .ub
    | .throw => .throw
    | .ub => .ub

/-- `get_channel(channel)` (image.ipp 548-567), for a pixel type with `n` channels. -/
def channel {P F : Type} [Zero F] (n : ℕ) (comp : ℕ → P → F) (i : Img P) (c : ℕ) : R (Img F) :=
  if c ≥ n then .throw
  else match alloc i.width i.height with
    | .ok m =>
      if m < i.data.length then .ub
      else .ok ⟨i.data.map (comp c) ++ List.replicate (m - i.data.length) 0, i.width, i.height, 0⟩
    | .throw => .throw
    | .ub => .ub

/-! ## Specification -/

/-- A picture: what an image is for its user. -/
structure Pic (P : Type) where
  w : ℕ
  h : ℕ
  px : ℕ → ℕ → P
  bits : ℤ

/-- The pictures held by the variables; `none`: the picture was moved away. -/
abbrev Pics (P : Type) := ℕ → Option (Pic P)

/-- What a statement means for the pictures; `none`: it uses a picture that was moved away, asks for a negative or too large size,
or writes at a negative coordinate. -/
def Means {P : Type} [Add P] (s : Pics P) : Op P → Option (Pics P × Bool)
  | .make v w h p =>
    if 0 ≤ w ∧ 0 ≤ h ∧ w * h ≤ 2147483647 then some (put s v (some ⟨w.toNat, h.toNat, fun _ _ => p, 0⟩), false) else none
  | .copy v u => (s u).map fun a => (put s v (some a), false)
  | .move v u => if v = u then none else (s u).map fun a => (put (put s v (some a)) u none, false)
  | .clear v => (s v).map fun a => (put s v (some ⟨0, 0, a.px, a.bits⟩), false)
  | .fill v p => (s v).map fun a => (put s v (some ⟨a.w, a.h, fun _ _ => p, a.bits⟩), false)
  | .add v a b => do
    let A ← s a
    let B ← s b
    if A.w = B.w ∧ A.h = B.h then some (put s v (some ⟨A.w, A.h, fun x y => A.px x y + B.px x y, 0⟩), false)
    else some (s, true)
  | .write v x y p => do
    let A ← s v
    if x < 0 ∨ y < 0 then none
    else if x < A.w ∧ y < A.h then
      some (put s v (some ⟨A.w, A.h, fun x' y' => if (x' : ℤ) = x ∧ (y' : ℤ) = y then p else A.px x' y', A.bits⟩), false)
    else some (s, true)
  | .bits v n => (s v).map fun a => (put s v (some ⟨a.w, a.h, a.px, n⟩), false)

/-- What a program means for the pictures. -/
def Meaning {P : Type} [Add P] (s : Pics P) : List (Op P) → Option (Pics P × List Bool)
  | [] => some (s, [])
  | o :: l => do
    let (s', t) ← Means s o
    let (s'', ts) ← Meaning s' l
    some (s'', t :: ts)

/-- The image shows the picture: sizes agree, there are `width * height` pixels, and every coordinate reads its pixel; any
coordinate right of or below the picture throws. -/
def Shows {P : Type} (i : Img P) (a : Pic P) : Prop :=
  i.width = a.w ∧ i.height = a.h ∧ i.bits = a.bits ∧ i.data.length = a.w * a.h ∧ a.w * a.h ≤ 2147483647 ∧
  (∀ x y : ℕ, x < a.w → y < a.h → i.get x y = .ok (a.px x y)) ∧
  (∀ x y : ℤ, (a.w : ℤ) ≤ x ∨ (a.h : ℤ) ≤ y → i.get x y = .throw)

/-- The full property: no program with image variables runs into undefined behaviour, and at its end every image has
`width * height` pixels. -/
def C142_full : Prop := ∀ l : List (Op ℤ), ∃ s ts, run (fun _ => Img.empty) l = .ok (s, ts) ∧
  ∀ v, 0 ≤ (s v).width ∧ 0 ≤ (s v).height ∧ ((s v).data.length : ℤ) = (s v).width * (s v).height

/-! ## Proofs -/

section
variable {P : Type}

theorem lin_lt {w h x y : ℕ} (hx : x < w) (hy : y < h) : y * w + x < w * h := by
  calc y * w + x < y * w + w := by omega
    _ = (y + 1) * w := by ring
    _ ≤ h * w := Nat.mul_le_mul_right _ hy
    _ = w * h := by ring

/-- Row-major order of pixels. -/
def RowMajor (i : Img P) (a : Pic P) : Prop :=
  i.width = a.w ∧ i.height = a.h ∧ i.bits = a.bits ∧ i.data.length = a.w * a.h ∧ a.w * a.h ≤ 2147483647 ∧
  ∀ x y : ℕ, x < a.w → y < a.h → i.data[y * a.w + x]? = some (a.px x y)

theorem at2_in {i : Img P} {a : Pic P} (h : RowMajor i a) {x y : ℕ} (hx : x < a.w) (hy : y < a.h) :
    at2 i x y = .ok (y * a.w + x) := by
  obtain ⟨h1, h2, h3, h4, h5, h6⟩ := h
  have hl := lin_lt hx hy
  unfold at2 index
  rw [h1, h2, if_neg (by omega), if_pos ⟨by positivity, by rw [h4]; exact_mod_cast hl⟩]
  congr 1

theorem shows_of_rowMajor {i : Img P} {a : Pic P} (h : RowMajor i a) : Shows i a := by
  have h' := h
  obtain ⟨h1, h2, h3, h4, h5, h6⟩ := h
  refine ⟨h1, h2, h3, h4, h5, ?_, ?_⟩
  · intro x y hx hy
    unfold Img.get
    rw [at2_in h' hx hy]
    simp only [h6 x y hx hy]
  · intro x y hxy
    unfold Img.get at2
    rw [if_pos (by omega)]

theorem alloc_nat {w h : ℕ} (hb : w * h ≤ 2147483647) : alloc (w : ℤ) (h : ℤ) = .ok (w * h) := by
  unfold alloc
  have e : (w : ℤ) * (h : ℤ) = ((w * h : ℕ) : ℤ) := by push_cast; ring
  rw [e, if_neg (by omega), if_neg (by omega)]
  rfl

theorem sums_spec [Add P] : ∀ (l m : List P), l.length = m.length →
    ∃ r, sums l m = some r ∧ r.length = l.length ∧
      ∀ (k : ℕ) (a b : P), l[k]? = some a → m[k]? = some b → r[k]? = some (a + b)
  | [], [], _ => ⟨[], rfl, rfl, by simp⟩
  | a :: l, b :: m, h => by
    obtain ⟨r, h1, h2, h3⟩ := sums_spec l m (by simpa using h)
    refine ⟨(a + b) :: r, by simp [sums, h1], by simp [h2], ?_⟩
    intro k x y hx hy
    cases k with
    | zero => simp at hx hy ⊢; rw [hx, hy]
    | succ k => simp at hx hy ⊢; exact h3 k x y hx hy
  | [], _ :: _, h => by simp at h
  | _ :: _, [], h => by simp at h

theorem lin_inj {w x y x' y' : ℕ} (hx : x < w) (hx' : x' < w) (h : y * w + x = y' * w + x') : x = x' ∧ y = y' := by
  have e1 : (y * w + x) / w = y := by
    rw [Nat.mul_comm, Nat.mul_add_div (by omega), Nat.div_eq_of_lt hx]; rfl
  have e2 : (y' * w + x') / w = y' := by
    rw [Nat.mul_comm, Nat.mul_add_div (by omega), Nat.div_eq_of_lt hx']; rfl
  have : y = y' := by rw [← e1, h, e2]
  subst this
  exact ⟨by omega, rfl⟩

/-- The variables show the pictures. -/
def Agree (s : State P) (S : Pics P) : Prop := ∀ v a, S v = some a → RowMajor (s v) a

theorem agree_put {s : State P} {S : Pics P} (h : Agree s S) {v : ℕ} {i : Img P} {a : Option (Pic P)}
    (hi : ∀ b, a = some b → RowMajor i b) : Agree (put s v i) (put S v a) := by
  intro k b hb
  unfold put at hb ⊢
  split_ifs with hk
  · rw [if_pos hk] at hb; exact hi b hb
  · rw [if_neg hk] at hb; exact h k b hb

theorem step_agree [Zero P] [Add P] {s : State P} {S S' : Pics P} {t : Bool} (h : Agree s S) (o : Op P)
    (ho : Means S o = some (S', t)) : ∃ s', step s o = .ok (s', t) ∧ Agree s' S' := by
  cases o with
  | make v w hh p =>
    simp only [Means] at ho
    split_ifs at ho with hc
    simp only [Option.some.injEq, Prod.mk.injEq] at ho
    obtain ⟨rfl, rfl⟩ := ho
    obtain ⟨w0, rfl⟩ := Int.eq_ofNat_of_zero_le hc.1
    obtain ⟨h0, rfl⟩ := Int.eq_ofNat_of_zero_le hc.2.1
    have hb : w0 * h0 ≤ 2147483647 := by have := hc.2.2; exact_mod_cast this
    refine ⟨put s v ⟨List.replicate (w0 * h0) p, w0, h0, 0⟩, ?_, ?_⟩
    · simp only [step, construct, alloc_nat hb]
    · apply agree_put h
      rintro b ⟨⟩
      refine ⟨rfl, rfl, rfl, by simp, by simpa using hb, ?_⟩
      intro x y hx hy
      simp only [Int.toNat_natCast] at hx hy ⊢
      rw [List.getElem?_replicate, if_pos (lin_lt hx hy)]
  | copy v u =>
    simp only [Means, Option.map_eq_some_iff] at ho
    obtain ⟨a, ha, he⟩ := ho
    simp only [Prod.mk.injEq] at he
    obtain ⟨rfl, rfl⟩ := he
    refine ⟨_, rfl, agree_put h ?_⟩
    rintro b ⟨⟩; exact h u a ha
  | move v u =>
    simp only [Means] at ho
    split_ifs at ho with hvu
    simp only [Option.map_eq_some_iff] at ho
    obtain ⟨a, ha, he⟩ := ho
    simp only [Prod.mk.injEq] at he
    obtain ⟨rfl, rfl⟩ := he
    refine ⟨_, rfl, agree_put (agree_put h ?_) (by simp)⟩
    rintro b ⟨⟩; exact h u a ha
  | clear v =>
    simp only [Means, Option.map_eq_some_iff] at ho
    obtain ⟨a, ha, he⟩ := ho
    simp only [Prod.mk.injEq] at he
    obtain ⟨rfl, rfl⟩ := he
    refine ⟨_, rfl, agree_put h ?_⟩
    rintro b ⟨⟩
    exact ⟨rfl, rfl, (h v a ha).2.2.1, by simp, by simp, by intro x y hx; simp at hx⟩
  | fill v p =>
    simp only [Means, Option.map_eq_some_iff] at ho
    obtain ⟨a, ha, he⟩ := ho
    simp only [Prod.mk.injEq] at he
    obtain ⟨rfl, rfl⟩ := he
    refine ⟨_, rfl, agree_put h ?_⟩
    rintro b ⟨⟩
    obtain ⟨h1, h2, h3, h4, h5, h6⟩ := h v a ha
    refine ⟨h1, h2, h3, by simp [h4], h5, ?_⟩
    intro x y hx hy
    simp only [h4]
    rw [List.getElem?_replicate, if_pos (lin_lt hx hy)]
  | add v a b =>
    simp only [Means, Option.bind_eq_bind, Option.bind_eq_some_iff] at ho
    obtain ⟨A, hA, B, hB, ho⟩ := ho
    obtain ⟨h1, h2, h3, h4, h5, h6⟩ := h a A hA
    obtain ⟨k1, k2, k3, k4, k5, k6⟩ := h b B hB
    by_cases hs : A.w = B.w ∧ A.h = B.h
    · rw [if_pos hs] at ho
      simp only [Option.some.injEq, Prod.mk.injEq] at ho
      obtain ⟨rfl, rfl⟩ := ho
      obtain ⟨r, r1, r2, r3⟩ := sums_spec (s a).data (s b).data (by rw [h4, k4, hs.1, hs.2])
      refine ⟨put s v ⟨r, A.w, A.h, 0⟩, ?_, ?_⟩
      · simp only [step, Img.add]
        rw [if_neg (by rw [h1, h2, k1, k2, hs.1, hs.2]; simp), h1, h2, alloc_nat h5]
        simp only [h4, lt_irrefl, if_false, r1, Nat.sub_self, List.replicate_zero, List.append_nil]
      · apply agree_put h
        rintro c ⟨⟩
        refine ⟨rfl, rfl, rfl, by rw [r2, h4], h5, ?_⟩
        intro x y hx hy
        exact r3 _ _ _ (h6 x y hx hy) (by rw [hs.1]; exact k6 x y (by rw [← hs.1]; exact hx) (by rw [← hs.2]; exact hy))
    · rw [if_neg hs] at ho
      simp only [Option.some.injEq, Prod.mk.injEq] at ho
      obtain ⟨rfl, rfl⟩ := ho
      refine ⟨s, ?_, h⟩
      simp only [step, Img.add]
      rw [if_pos]
      rw [h1, h2, k1, k2]
      by_contra hc
      push Not at hc
      exact hs ⟨by exact_mod_cast hc.1, by exact_mod_cast hc.2⟩
  | write v x y p =>
    simp only [Means, Option.bind_eq_bind, Option.bind_eq_some_iff] at ho
    obtain ⟨A, hA, ho⟩ := ho
    have hr := h v A hA
    obtain ⟨h1, h2, h3, h4, h5, h6⟩ := h v A hA
    by_cases hn : x < 0 ∨ y < 0
    · rw [if_pos hn] at ho; simp at ho
    rw [if_neg hn] at ho
    push Not at hn
    obtain ⟨X, rfl⟩ := Int.eq_ofNat_of_zero_le hn.1
    obtain ⟨Y, rfl⟩ := Int.eq_ofNat_of_zero_le hn.2
    by_cases hin : (X : ℤ) < A.w ∧ (Y : ℤ) < A.h
    · rw [if_pos hin] at ho
      simp only [Option.some.injEq, Prod.mk.injEq] at ho
      obtain ⟨rfl, rfl⟩ := ho
      have hX : X < A.w := by exact_mod_cast hin.1
      have hY : Y < A.h := by exact_mod_cast hin.2
      refine ⟨put s v { s v with data := (s v).data.set (Y * A.w + X) p }, ?_, ?_⟩
      · simp only [step, at2_in hr hX hY]
      · apply agree_put h
        rintro c ⟨⟩
        refine ⟨h1, h2, h3, by simp [h4], h5, ?_⟩
        intro x' y' hx' hy'
        simp only at hx' hy' ⊢
        by_cases he : (x' : ℤ) = X ∧ (y' : ℤ) = Y
        · have e1 : x' = X := by exact_mod_cast he.1
          have e2 : y' = Y := by exact_mod_cast he.2
          subst e1 e2
          rw [if_pos he, List.getElem?_set_self]
          rw [h4]; exact lin_lt hx' hy'
        · rw [if_neg he, List.getElem?_set_ne, h6 x' y' hx' hy']
          intro hl
          obtain ⟨e1, e2⟩ := lin_inj hX hx' hl
          exact he ⟨by rw [e1], by rw [e2]⟩
    · rw [if_neg hin] at ho
      simp only [Option.some.injEq, Prod.mk.injEq] at ho
      obtain ⟨rfl, rfl⟩ := ho
      refine ⟨s, ?_, h⟩
      simp only [step, at2]
      rw [if_pos (by rw [h1, h2]; omega)]
  | bits v n =>
    simp only [Means, Option.map_eq_some_iff] at ho
    obtain ⟨a, ha, he⟩ := ho
    simp only [Prod.mk.injEq] at he
    obtain ⟨rfl, rfl⟩ := he
    refine ⟨_, rfl, agree_put h ?_⟩
    rintro b ⟨⟩
    obtain ⟨h1, h2, h3, h4, h5, h6⟩ := h v a ha
    exact ⟨h1, h2, rfl, h4, h5, h6⟩

theorem run_agree [Zero P] [Add P] (l : List (Op P)) : ∀ {s : State P} {S S' : Pics P} {ts : List Bool}, Agree s S →
    Meaning S l = some (S', ts) → ∃ s', run s l = .ok (s', ts) ∧ Agree s' S' := by
  induction l with
  | nil =>
    intro s S S' ts h hm
    simp only [Meaning, Option.some.injEq, Prod.mk.injEq] at hm
    obtain ⟨rfl, rfl⟩ := hm
    exact ⟨s, rfl, h⟩
  | cons o l ih =>
    intro s S S' ts h hm
    simp only [Meaning, Option.bind_eq_bind, Option.bind_eq_some_iff, Option.some.injEq, Prod.mk.injEq, Prod.exists] at hm
    obtain ⟨S1, t, h1, S2, ts2, h2, rfl, rfl⟩ := hm
    obtain ⟨s1, e1, a1⟩ := step_agree h o h1
    obtain ⟨s2, e2, a2⟩ := ih a1 h2
    exact ⟨s2, by simp [run, e1, e2], a2⟩

/-- C142 (partial): a program that gives its images sizes of at most 2³¹ − 1 pixels, does not write at negative coordinates and does
not use an image it moved away, before assigning to it again, runs as its pictures say: each variable shows its picture at the end,
and exactly the sums of different sizes and the writes off the picture throw. -/
theorem C142_partial [Zero P] [Add P] (l : List (Op P)) (S : Pics P) (ts : List Bool)
    (h : Meaning (fun _ => some ⟨0, 0, fun _ _ => 0, 0⟩) l = some (S, ts)) :
    ∃ s, run (fun _ => Img.empty) l = .ok (s, ts) ∧ ∀ v a, S v = some a → Shows (s v) a := by
  obtain ⟨s, h1, h2⟩ := run_agree (s := fun _ => Img.empty) l (by
    rintro v a ⟨⟩
    exact ⟨rfl, rfl, rfl, rfl, by simp, by intro x y hx; simp at hx⟩) h
  exact ⟨s, h1, fun v a ha => shows_of_rowMajor (h2 v a ha)⟩

/-- C142: a channel of an image is the picture of that component; a channel that does not exist throws. -/
theorem C142_channel {F : Type} [Zero F] (n : ℕ) (comp : ℕ → P → F) (i : Img P) (a : Pic P) (h : Shows i a) (c : ℕ) :
    (n ≤ c → channel n comp i c = .throw) ∧
    (c < n → ∃ j, channel n comp i c = .ok j ∧ Shows j ⟨a.w, a.h, fun x y => comp c (a.px x y), 0⟩) := by
  refine ⟨fun hc => by unfold channel; rw [if_pos hc], ?_⟩
  intro hc
  obtain ⟨h1, h2, h3, h4, h5, h6, h7⟩ := h
  have hr : RowMajor i a := by
    refine ⟨h1, h2, h3, h4, h5, ?_⟩
    intro x y hx hy
    have := h6 x y hx hy
    have hat : at2 i x y = .ok (y * a.w + x) := by
      have hl := lin_lt hx hy
      unfold at2 index
      rw [h1, h2, if_neg (by omega), if_pos ⟨by positivity, by rw [h4]; exact_mod_cast hl⟩]
      congr 1
    unfold Img.get at this
    rw [hat] at this
    simp only at this
    cases hd : i.data[y * a.w + x]? with
    | none => rw [hd] at this; simp at this
    | some p => rw [hd] at this; simp only [R.ok.injEq] at this; rw [this]
  refine ⟨⟨i.data.map (comp c), i.width, i.height, 0⟩, ?_, ?_⟩
  · unfold channel
    rw [if_neg (by omega), h1, h2, alloc_nat h5]
    simp [h4]
  · apply shows_of_rowMajor
    refine ⟨h1, h2, rfl, by simp [h4], h5, ?_⟩
    intro x y hx hy
    simp only [List.getElem?_map, hr.2.2.2.2.2 x y hx hy, Option.map_some]

/-- C142: exactly which sizes a new image can have: the product must be a non-negative `int`. -/
theorem C142_sizes (w h : ℤ) (p : P) :
    ((∃ i, construct w h p = .ok i) ↔ 0 ≤ w * h ∧ w * h ≤ 2147483647) ∧
    (∀ i, construct w h p = .ok i → (i.data.length : ℤ) = w * h ∧ i.width = w ∧ i.height = h ∧ ∀ q ∈ i.data, q = p) := by
  unfold construct alloc
  by_cases h1 : w * h < -2147483648 ∨ 2147483647 < w * h
  · rw [if_pos h1]; simp; omega
  · rw [if_neg h1]
    by_cases h2 : w * h < 0
    · rw [if_pos h2]; simp; omega
    · rw [if_neg h2]
      refine ⟨⟨fun _ => by omega, fun _ => ⟨_, rfl⟩⟩, ?_⟩
      intro i hi
      simp only [R.ok.injEq] at hi
      subst hi
      refine ⟨by simp; omega, rfl, rfl, fun q hq => (List.mem_replicate.mp hq).2⟩

/-- An image keeps its size when it is moved away, without its pixels: reading a pixel it still claims is undefined. -/
theorem C142_violated_moved [Zero P] [Add P] (s : State P) (v u : ℕ) (huv : u ≠ v) (a : Pic P) (ha : Shows (s u) a) (x y : ℕ)
    (hx : x < a.w) (hy : y < a.h) (p : P) :
    ∃ s', step s (.move v u) = .ok (s', false) ∧ (s' u).width = a.w ∧ (s' u).height = a.h ∧ (s' u).data = [] ∧
      step s' (.write u x y p) = .ub := by
  refine ⟨_, rfl, ?_⟩
  have e : put (put s v (s u)) u { s u with data := [] } u = { s u with data := [] } := by simp [put]
  refine ⟨by rw [e]; exact ha.1, by rw [e]; exact ha.2.1, by rw [e], ?_⟩
  simp only [step, e, at2, index]
  have h1 : (s u).width = a.w := ha.1
  have h2 : (s u).height = a.h := ha.2.1
  rw [if_neg (by rw [h1, h2]; omega), if_neg (by simp)]

/-- Two negative sizes give an image with pixels; a size of 65536 × 65536 is undefined. -/
theorem C142_violated_sizes :
    (∃ i, construct (-2) (-3) (0 : ℤ) = .ok i ∧ i.data.length = 6 ∧ i.width = -2) ∧
    construct 65536 65536 (0 : ℤ) = .ub := by
  refine ⟨⟨_, rfl, rfl, rfl⟩, rfl⟩

end

/-- C142 does not hold. -/
theorem C142_violated : ¬ C142_full := by
  intro H
  obtain ⟨s, ts, h, _⟩ := H [.make 0 65536 65536 0]
  have : run (fun _ => Img.empty) [.make 0 65536 65536 (0 : ℤ)] = .ub := rfl
  rw [this] at h
  cases h

/-- A program that copies, adds, writes and moves. -/
def exProgram : List (Op ℤ) :=
  [.make 0 2 2 7, .copy 1 0, .write 1 1 0 5, .add 2 0 1, .move 3 2, .write 3 2 0 9, .fill 0 4, .make 2 3 1 0, .add 4 2 0]

/-- Its meaning: the copy does not change the original, the sum is of the two pictures, the write off the picture and the sum of
different sizes throw. -/
example : ∃ S, Meaning (fun _ => some ⟨0, 0, fun _ _ => 0, 0⟩) exProgram =
      some (S, [false, false, false, false, false, true, false, false, true]) ∧
    (∃ a, S 3 = some a ∧ a.w = 2 ∧ a.px 1 0 = 12 ∧ a.px 0 0 = 14) ∧ ∃ a, S 1 = some a ∧ a.px 1 0 = 5 ∧ a.px 1 1 = 7 := by
  refine ⟨_, rfl, ⟨_, rfl, rfl, by decide, by decide⟩, ⟨_, rfl, by decide, by decide⟩⟩

end Huira.ImageValues
