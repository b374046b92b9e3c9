import Mathlib.Data.List.Nodup
import Mathlib.Data.List.Range
import Mathlib.Tactic
set_option linter.unusedSimpArgs false
/-!
# C146: the ids of scene objects

Models the id of a `SceneObject` (`include/huira/scene/scene_object.hpp` 29, 37, 68, 90-91): the shared counter of a kind of objects
(`static inline std::uint64_t next_id_`, one per `TDerived`), the constructor, the move constructor and destruction.  The counter is an
ordinary integer: its increment is a read and a write, between which other threads may run.  What a C++ data race may do beyond such an
interleaving is not modelled.
-/
namespace Huira.Ids

/-- The values of `std::uint64_t`. -/
def wrap : Nat := 2 ^ 64

/-- The counter, the ids of the living objects by address, and for every thread that is within the constructor the value it has read. -/
structure St where
  next : Nat := 0
  live : List (Nat × Nat) := []
  reading : List (Nat × Nat) := []

/-- What can happen next. -/
inductive Event where
  /-- a thread enters `SceneObject()` and reads the counter (scene_object.hpp 29) -/
  | enter (thread : Nat)
  /-- it writes the counter and stores the id in its object, at a free address -/
  | leave (thread addr : Nat)
  /-- `SceneObject(SceneObject&&)` (scene_object.hpp 37): `id_` is left to its default member initialiser 0 (90) -/
  | move (from' addr : Nat)
  /-- the destructor -/
  | destroy (addr : Nat)

/-- One step; `none` if the event is impossible in the state. -/
def step (s : St) : Event → Option St
  | .enter t => if t ∈ s.reading.map Prod.fst then none else some { s with reading := s.reading ++ [(t, s.next)] }
  | .leave t a =>
    match s.reading.find? (fun r => r.1 = t) with
    | none => none
    | some (_, v) =>
      if a ∈ s.live.map Prod.fst then none
      else some { next := (v + 1) % wrap, live := s.live ++ [(a, v)], reading := s.reading.filter (fun r => r.1 ≠ t) }
  | .move f a => if f ∈ s.live.map Prod.fst ∧ a ∉ s.live.map Prod.fst then some { s with live := s.live ++ [(a, 0)] } else none
  | .destroy a => if a ∈ s.live.map Prod.fst then some { s with live := s.live.filter (fun o => o.1 ≠ a) } else none

/-- A history. -/
def run (s : St) : List Event → Option St
  | [] => some s
  | e :: es => (step s e).bind fun s' => run s' es

/-- `id()` (scene_object.hpp 68) of the living object at an address. -/
def idOf (s : St) (a : Nat) : Option Nat := (s.live.find? fun o => o.1 = a).map Prod.snd

/-! ### Specification -/

/-- Different living objects have different ids. -/
def Unique (s : St) : Prop := ∀ a b i, idOf s a = some i → idOf s b = some i → a = b

/-- Whether an event is a move. -/
def Event.isMove : Event → Bool | .move .. => true | _ => false

/-- Every construction is finished before anything else happens: constructions do not overlap. -/
def OneAtATime : List Event → Prop
  | [] => True
  | .enter t :: .leave t' _ :: es => t = t' ∧ OneAtATime es
  | .enter _ :: _ => False
  | .leave .. :: _ => False
  | _ :: es => OneAtATime es

/-- How many objects a history makes. -/
def made (es : List Event) : Nat := es.countP fun e => match e with | .leave .. => true | _ => false

/-- **C146 in full**: after every history, different living objects have different ids. -/
def C146_full : Prop := ∀ es s, run {} es = some s → made es ≤ wrap → Unique s

/-! ### Theorems -/

theorem find_snd {l : List (Nat × Nat)} {a i : Nat} (h : (l.find? fun o => o.1 = a).map Prod.snd = some i) : (a, i) ∈ l := by
  obtain ⟨o, ho, rfl⟩ := Option.map_eq_some_iff.mp h
  have h1 := List.find?_some ho
  have h2 := List.mem_of_find?_eq_some ho
  simp only [decide_eq_true_eq] at h1
  rw [← h1]
  exact h2

/-- Ids below the counter, all different. -/
structure Inv (n : Nat) (s : St) : Prop where
  next : s.next = n % wrap
  idle : s.reading = []
  below : ∀ o ∈ s.live, o.2 < n
  nodup : (s.live.map Prod.snd).Nodup

theorem run_ordered : ∀ (k : Nat) (es : List Event), es.length ≤ k → ∀ (n : Nat) (s s' : St), Inv n s → (∀ e ∈ es, e.isMove = false) →
    OneAtATime es → n + made es ≤ wrap → run s es = some s' → Inv (n + made es) s' := by
  intro k
  induction k with
  | zero =>
    intro es hk n s s' hi _ _ _ hr
    have : es = [] := List.length_eq_zero_iff.mp (by omega)
    subst this
    simp only [run, Option.some.injEq] at hr
    subst hr
    simpa [made] using hi
  | succ k ih =>
    intro es hk n s s' hi hm ho hw hr
    match es, hk, hm, ho, hw, hr with
    | [], _, _, _, _, hr =>
      simp only [run, Option.some.injEq] at hr
      subst hr
      simpa [made] using hi
    | .enter t :: .leave t' a :: es, hk, hm, ho, hw, hr =>
      obtain ⟨rfl, ho⟩ := ho
      have hmade : made (.enter t :: .leave t a :: es) = made es + 1 := by simp [made]
      rw [hmade] at hw ⊢
      simp only [run, step, hi.idle, List.map_nil, List.not_mem_nil, if_false, List.nil_append, Option.bind_some] at hr
      simp only [List.find?_cons, decide_true] at hr
      by_cases ha : a ∈ s.live.map Prod.fst
      · simp [ha] at hr
      · rw [if_neg ha] at hr
        simp only [Option.bind_some] at hr
        have hn : n < wrap := by omega
        have hnn : s.next = n := by rw [hi.next, Nat.mod_eq_of_lt hn]
        have := ih es (by simp only [List.length_cons] at hk; omega) (n + 1) _ s' ?_ (fun e he => hm e (by simp [he])) ho (by omega) hr
        · rwa [show n + (made es + 1) = n + 1 + made es by omega]
        · refine ⟨by simp [hnn], by simp, ?_, ?_⟩
          · intro o hmem
            rcases List.mem_append.mp hmem with h | h
            · exact Nat.lt_succ_of_lt (hi.below o h)
            · simp only [List.mem_singleton] at h
              rw [h, hnn]; exact Nat.lt_succ_self n
          · rw [List.map_append, List.nodup_append]
            refine ⟨hi.nodup, by simp, ?_⟩
            intro x hx y hy
            obtain ⟨o, h1, rfl⟩ := List.mem_map.mp hx
            simp only [List.map_cons, List.map_nil, List.mem_singleton] at hy
            rw [hy, hnn]
            exact (hi.below o h1).ne
    | .move f a :: es, _, hm, _, _, _ => exact absurd (hm (.move f a) (by simp)) (by simp [Event.isMove])
    | .destroy a :: es, hk, hm, ho, hw, hr =>
      have hmade : made (.destroy a :: es) = made es := by simp [made]
      rw [hmade] at hw ⊢
      simp only [run, step] at hr
      split at hr
      · simp only [Option.bind_some] at hr
        refine ih es (by simp only [List.length_cons] at hk; omega) n _ s' ?_ (fun e he => hm e (by simp [he])) ho hw hr
        exact ⟨hi.next, hi.idle, fun o h => hi.below o (List.mem_filter.mp h).1,
          hi.nodup.sublist ((List.filter_sublist).map _)⟩
      · simp at hr
    | [.enter t], _, _, ho, _, _ => exact absurd ho (by simp [OneAtATime])
    | .enter t :: .enter t' :: es, _, _, ho, _, _ => exact absurd ho (by simp [OneAtATime])
    | .enter t :: .move f a :: es, _, _, ho, _, _ => exact absurd ho (by simp [OneAtATime])
    | .enter t :: .destroy a :: es, _, _, ho, _, _ => exact absurd ho (by simp [OneAtATime])
    | .leave t a :: es, _, _, ho, _, _ => exact absurd ho (by simp [OneAtATime])

/-- **C146 (partial).**  If no object is moved and no two objects are constructed at the same time, different living objects have
different ids, after every history of at most 2^64 constructions and any destructions. -/
theorem C146_partial (es : List Event) (s : St) (hr : run {} es = some s) (hm : ∀ e ∈ es, e.isMove = false) (ho : OneAtATime es)
    (hw : made es ≤ wrap) : Unique s := by
  have hi := run_ordered es.length es le_rfl 0 {} s ⟨by simp, rfl, by simp, by simp⟩ hm ho (by simpa using hw) hr
  intro a b i ha hb
  have h1 := find_snd ha
  have h2 := find_snd hb
  have h3 : ((a, i) : Nat × Nat) = (b, i) := List.inj_on_of_nodup_map hi.nodup h1 h2 rfl
  exact congrArg Prod.fst h3

/-- **C146.**  A new object, constructed while no other is, has the id that follows the last one given out: ids count the objects of the
kind, modulo 2^64, and are not given out again after a destruction. -/
theorem C146_counts (es : List Event) (s s' : St) (t a : Nat) (hr : run {} es = some s) (hm : ∀ e ∈ es, e.isMove = false)
    (ho : OneAtATime es) (hw : made es ≤ 2 ^ 64) (hs : run s [.enter t, .leave t a] = some s') :
    idOf s' a = some (made es % 2 ^ 64) := by
  have hi := run_ordered es.length es le_rfl 0 {} s ⟨by simp, rfl, by simp, by simp⟩ hm ho (by simpa [wrap] using hw) hr
  simp only [Nat.zero_add] at hi
  have hn : s.next = made es % 2 ^ 64 := by rw [hi.next]; rfl
  simp only [run, step, hi.idle, List.map_nil, List.not_mem_nil, if_false, List.nil_append, Option.bind_some, List.find?_cons,
    decide_true] at hs
  by_cases ha : a ∈ s.live.map Prod.fst
  · simp [ha] at hs
  · rw [if_neg ha] at hs
    simp only [Option.bind_some, Option.some.injEq] at hs
    have hnone : s.live.find? (fun o => decide (o.1 = a)) = none := by
      rw [List.find?_eq_none]
      intro o h hoa
      exact ha (List.mem_map.mpr ⟨o, h, by simpa using hoa⟩)
    rw [← hs]
    simp only [idOf, List.find?_append, hnone, Option.none_or, List.find?_cons, decide_true, Option.map_some, hn]

/-- **C146, moves, violated.**  A moved object does not take its id along but has the id 0, that of the first object of its kind. -/
theorem C146_violated_move : ∃ es s, run {} es = some s ∧ made es ≤ wrap ∧ OneAtATime es ∧ idOf s 10 = some 0 ∧ idOf s 12 = some 0 := by
  exact ⟨[.enter 1, .leave 1 10, .enter 1, .leave 1 11, .move 11 12, .destroy 11], _, rfl, by norm_num [made, wrap],
    ⟨rfl, rfl, trivial⟩, by decide, by decide⟩

/-- **C146, threads, violated.**  Two objects constructed at the same time by two threads get the same id. -/
theorem C146_violated_threads : ∃ es s, run {} es = some s ∧ made es ≤ wrap ∧ (∀ e ∈ es, e.isMove = false) ∧
    idOf s 10 = some 0 ∧ idOf s 11 = some 0 := by
  refine ⟨[.enter 1, .enter 2, .leave 1 10, .leave 2 11], _, rfl, by norm_num [made, wrap], ?_, by decide, by decide⟩
  simp [Event.isMove]

/-- C146 does not hold. -/
theorem C146_violated : ¬ C146_full := by
  intro H
  obtain ⟨es, s, hr, hw, -, h1, h2⟩ := C146_violated_move
  have := H es s hr hw 10 12 0 h1 h2
  omega

/-- The hypotheses of `C146_partial` and `C146_counts` are met by a history with three objects, one destroyed. -/
example : ∃ s, run {} [.enter 1, .leave 1 10, .enter 2, .leave 2 11, .destroy 10, .enter 1, .leave 1 10] = some s ∧
    idOf s 11 = some 1 ∧ idOf s 10 = some 2 ∧ OneAtATime [.enter 1, .leave 1 10, .enter 2, .leave 2 11, .destroy 10, .enter 1, .leave 1 10] :=
  ⟨_, rfl, by decide, by decide, ⟨rfl, rfl, rfl, trivial⟩⟩

end Huira.Ids
