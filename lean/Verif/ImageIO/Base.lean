/-!
# Byte-level readers: outcomes, C++ integer arithmetic, copy loops

Shared vocabulary of the reader models. A C++ exception is `throw`; undefined behaviour (out-of-bounds access,
signed overflow) is `ub`.
-/
namespace Huira.ImageIO

abbrev Byte := UInt8

inductive Res (α : Type) where
  | ok (a : α)
  | throw
  | ub
deriving DecidableEq

namespace Res
def bind {α β : Type} (r : Res α) (f : α → Res β) : Res β :=
  match r with
  | ok a => f a
  | throw => throw
  | ub => ub
instance : Monad Res where
  pure := Res.ok
  bind := Res.bind

@[simp] theorem ok_bind {α β : Type} (a : α) (f : α → Res β) : (Res.ok a >>= f) = f a := rfl
@[simp] theorem throw_bind {α β : Type} (f : α → Res β) : ((Res.throw : Res α) >>= f) = Res.throw := rfl
@[simp] theorem ub_bind {α β : Type} (f : α → Res β) : ((Res.ub : Res α) >>= f) = Res.ub := rfl
@[simp] theorem pure_eq {α : Type} (a : α) : (pure a : Res α) = Res.ok a := rfl

theorem bind_ok_iff {α β : Type} (r : Res α) (f : α → Res β) (b : β) :
    (r >>= f) = .ok b ↔ ∃ a, r = .ok a ∧ f a = .ok b := by
  cases r <;> simp
theorem bind_ub_iff {α β : Type} (r : Res α) (f : α → Res β) :
    (r >>= f) = .ub ↔ r = .ub ∨ ∃ a, r = .ok a ∧ f a = .ub := by
  cases r <;> simp
end Res

/-- Throw unless `b`. -/
def guardThrow (b : Bool) : Res Unit := if b then .ok () else .throw

/-- The result of a signed 32-bit operation. -/
def i32 (n : Int) : Res Int := if -2147483648 ≤ n ∧ n < 2147483648 then .ok n else .ub

/-- `static_cast<std::size_t>(int)` -/
def toSizeT (n : Int) : Nat := (n % 18446744073709551616).toNat

/-- Unsigned little-endian fields of the file (0 beyond the end; only used below a checked size). -/
def byteAt (d : List Byte) (i : Nat) : Nat := ((d[i]?).getD 0).toNat
def le16 (d : List Byte) (i : Nat) : Nat := byteAt d i + 256 * byteAt d (i + 1)
def le32 (d : List Byte) (i : Nat) : Nat := le16 d i + 65536 * le16 d (i + 2)
/-- `memcpy` into an `int32_t`. -/
def s32 (n : Nat) : Int := if n < 2147483648 then (n : Int) else (n : Int) - 4294967296

/-- A loop of byte copies `dst[d] = src[s]`, each access bounds-checked by the model. -/
def copyLoop (src : List Byte) : List (Nat × Nat) → List Byte → Res (List Byte)
  | [], dst => .ok dst
  | (d, s) :: ms, dst =>
    match src[s]? with
    | none => .ub
    | some v => if d < dst.length then copyLoop src ms (dst.set d v) else .ub

theorem copyLoop_spec (src : List Byte) : ∀ (ms : List (Nat × Nat)) (dst : List Byte),
    (∀ m ∈ ms, m.1 < dst.length ∧ m.2 < src.length) →
    (∀ m ∈ ms, ∀ m' ∈ ms, m.1 = m'.1 → m.2 = m'.2) →
    ∃ r, copyLoop src ms dst = .ok r ∧ r.length = dst.length ∧ (∀ m ∈ ms, r[m.1]? = src[m.2]?) ∧
      (∀ i, (∀ m ∈ ms, m.1 ≠ i) → r[i]? = dst[i]?)
  | [], dst, _, _ => ⟨dst, rfl, rfl, by simp, fun _ _ => rfl⟩
  | (d, s) :: ms, dst, h1, h2 => by
    obtain ⟨hd, hs⟩ := h1 (d, s) (List.mem_cons_self ..)
    simp only at hd hs
    unfold copyLoop
    rw [List.getElem?_eq_getElem hs]
    simp only [hd, if_true]
    obtain ⟨r, hr, hl, hm, ho⟩ := copyLoop_spec src ms (dst.set d src[s])
      (fun m hm => by rw [List.length_set]; exact h1 m (List.mem_cons_of_mem _ hm))
      (fun m hm m' hm' => h2 m (List.mem_cons_of_mem _ hm) m' (List.mem_cons_of_mem _ hm'))
    refine ⟨r, hr, by rw [hl, List.length_set], ?_, ?_⟩
    · intro m hmem
      by_cases hin : ∃ m' ∈ ms, m'.1 = m.1
      · obtain ⟨m', hm', he⟩ := hin
        have := h2 m hmem m' (List.mem_cons_of_mem _ hm') he.symm
        rw [← he, hm m' hm', this]
      · rcases List.mem_cons.1 hmem with rfl | hms
        · simp only
          rw [ho d (fun m hm he => hin ⟨m, hm, he⟩), List.getElem?_set_self hd, List.getElem?_eq_getElem hs]
        · exact absurd ⟨m, hms, rfl⟩ hin
    · intro i hi
      rw [ho i (fun m hm => hi m (List.mem_cons_of_mem _ hm)), List.getElem?_set_ne]
      exact hi (d, s) (List.mem_cons_self ..)

/-- Run a checked computation for each element of a list. -/
def mapRes {α β : Type} (f : α → Res β) : List α → Res (List β)
  | [] => .ok []
  | a :: l => f a >>= fun b => mapRes f l >>= fun bs => .ok (b :: bs)

theorem mapRes_ok {α β : Type} (f : α → Res β) (g : α → β) : ∀ (l : List α), (∀ a ∈ l, f a = .ok (g a)) →
    mapRes f l = .ok (l.map g)
  | [], _ => rfl
  | a :: l, h => by
    unfold mapRes
    rw [h a (List.mem_cons_self ..), mapRes_ok f g l (fun x hx => h x (List.mem_cons_of_mem _ hx))]
    rfl

/-- All `(x, y)` of a `w × h` loop nest, rows outermost. -/
def grid (w h : Nat) : List (Nat × Nat) := (List.range h).flatMap fun y => (List.range w).map fun x => (x, y)

theorem mem_grid (w h : Nat) (p : Nat × Nat) : p ∈ grid w h ↔ p.1 < w ∧ p.2 < h := by
  obtain ⟨x, y⟩ := p
  simp only [grid, List.mem_flatMap, List.mem_range, List.mem_map, Prod.mk.injEq]
  constructor
  · rintro ⟨y', hy, x', hx, rfl, rfl⟩; exact ⟨hx, hy⟩
  · rintro ⟨hx, hy⟩; exact ⟨y, hy, x, hx, rfl, rfl⟩

/-- Pixel/channel indices decode uniquely. -/
theorem pixel_index_inj (w ch x y c x' y' c' : Nat) (hx : x < w) (hx' : x' < w) (hc : c < ch) (hc' : c' < ch)
    (h : (y * w + x) * ch + c = (y' * w + x') * ch + c') : x = x' ∧ y = y' ∧ c = c' := by
  have hch : 0 < ch := by omega
  have h1 : ((y * w + x) * ch + c) / ch = y * w + x := by
    rw [Nat.mul_comm, Nat.mul_add_div hch, Nat.div_eq_of_lt hc, Nat.add_zero]
  have h2 : ((y' * w + x') * ch + c') / ch = y' * w + x' := by
    rw [Nat.mul_comm, Nat.mul_add_div hch, Nat.div_eq_of_lt hc', Nat.add_zero]
  have e : y * w + x = y' * w + x' := by rw [← h1, ← h2, h]
  have hw : 0 < w := by omega
  have h3 : (y * w + x) / w = y := by
    rw [Nat.mul_comm, Nat.mul_add_div hw, Nat.div_eq_of_lt hx, Nat.add_zero]
  have h4 : (y' * w + x') / w = y' := by
    rw [Nat.mul_comm, Nat.mul_add_div hw, Nat.div_eq_of_lt hx', Nat.add_zero]
  have ey : y = y' := by rw [← h3, ← h4, e]
  subst ey
  have ex : x = x' := by omega
  subst ex
  exact ⟨rfl, rfl, by omega⟩

theorem pixel_index_lt (w h ch x y c : Nat) (hx : x < w) (hy : y < h) (hc : c < ch) :
    (y * w + x) * ch + c < w * h * ch := by
  have h1 : y * w + x + 1 ≤ h * w := by
    have : (y + 1) * w ≤ h * w := Nat.mul_le_mul_right _ hy
    rw [Nat.succ_mul] at this
    omega
  have h2 : (y * w + x + 1) * ch ≤ h * w * ch := Nat.mul_le_mul_right _ h1
  rw [Nat.succ_mul] at h2
  rw [Nat.mul_comm w h]
  omega

end Huira.ImageIO
