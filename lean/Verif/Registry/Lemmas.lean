import Verif.Registry.Model
/-! Helper lemmas for the name registry. -/
set_option linter.unusedSimpArgs false
namespace Huira.Registry

/-! ## Decimal printing is injective -/

def valueOf (l : Name) : Nat := l.foldl (fun a c => 10 * a + (c.toNat - 48)) 0

theorem digit_value (d : Nat) (h : d < 10) : (digitChar d).toNat - 48 = d := by
  have : d = 0 ∨ d = 1 ∨ d = 2 ∨ d = 3 ∨ d = 4 ∨ d = 5 ∨ d = 6 ∨ d = 7 ∨ d = 8 ∨ d = 9 := by omega
  rcases this with h | h | h | h | h | h | h | h | h | h <;> subst h <;> rfl

theorem valueOf_decimalAux : ∀ (fuel n : Nat), n < fuel → valueOf (decimalAux fuel n) = n
  | 0, n, h => by omega
  | fuel + 1, n, h => by
    rw [decimalAux]
    split
    · next h => simp [valueOf, digit_value n h]
    · next h' =>
      have h1 := valueOf_decimalAux fuel (n / 10) (by omega)
      have h2 := digit_value (n % 10) (by omega)
      unfold valueOf at *
      rw [List.foldl_append, h1]
      simp only [List.foldl_cons, List.foldl_nil, h2]
      omega

theorem valueOf_decimal (n : Nat) : valueOf (decimal n) = n := valueOf_decimalAux _ _ (by omega)

theorem decimal_inj {a b : Nat} (h : decimal a = decimal b) : a = b := by
  rw [← valueOf_decimal a, h, valueOf_decimal]

theorem suffixed_inj {base : Name} {a b : Nat} (h : suffixed base a = suffixed base b) : a = b := by
  unfold suffixed at h
  exact decimal_inj (List.append_cancel_left h)

theorem suffixed_ne_nil (base : Name) (k : Nat) : suffixed base k ≠ [] := by
  unfold suffixed; simp

/-! ## The association list -/

theorem find_some_mem {m : List (Name × Obj)} {n o} (h : find m n = some o) : (n, o) ∈ m := by
  induction m with
  | nil => simp [find] at h
  | cons e m ih =>
    obtain ⟨k, v⟩ := e
    simp only [find] at h
    split at h
    · next hk => subst hk; simp at h; subst h; simp
    · exact List.mem_cons_of_mem _ (ih h)

theorem contains_mem {m : List (Name × Obj)} {n} (h : contains m n = true) : n ∈ m.map (·.1) := by
  unfold contains at h
  rw [Option.isSome_iff_exists] at h
  obtain ⟨o, ho⟩ := h
  exact List.mem_map.2 ⟨_, find_some_mem ho, rfl⟩

theorem find_erase (m : List (Name × Obj)) (n k : Name) :
    find (erase m n) k = if k = n then none else find m k := by
  induction m with
  | nil => simp [erase, find]
  | cons e m ih =>
    obtain ⟨a, v⟩ := e
    unfold erase at ih ⊢
    by_cases ha : a = n
    · subst ha
      simp only [List.filter_cons, ne_eq, not_true, decide_false, find, Bool.false_eq_true, if_false]
      rw [ih]
      by_cases hk : k = a
      · simp [hk]
      · simp [hk, Ne.symm hk]
    · simp only [List.filter_cons, ne_eq, ha, not_false_eq_true, decide_true, if_true, find]
      by_cases hk : a = k
      · subst hk; simp [ha]
      · simpa [hk] using ih

theorem find_assign (m : List (Name × Obj)) (n k : Name) (o : Obj) :
    find (assign m n o) k = if k = n then some o else find m k := by
  unfold assign
  simp only [find]
  by_cases h : n = k
  · simp [h]
  · simp [h, Ne.symm h, find_erase]

/-! ## `make_unique_name_` terminates and picks the least free suffix -/

/-- If the search has not finished after `fuel` iterations then `fuel` different names are occupied. -/
theorem searchName_none {m : List (Name × Obj)} {base : Name} :
    ∀ {fuel k}, searchName m base fuel k = none → ∀ j, k ≤ j → j < k + fuel → contains m (suffixed base j) = true
  | 0, k, _, j, h1, h2 => by omega
  | fuel + 1, k, h, j, h1, h2 => by
    simp only [searchName] at h
    split at h
    · next hc =>
      by_cases hj : j = k
      · subst hj; exact hc
      · exact searchName_none h j (by omega) (by omega)
    · simp at h

theorem searchName_some {m : List (Name × Obj)} {base n : Name} :
    ∀ {fuel k}, searchName m base fuel k = some n →
      ∃ j, k ≤ j ∧ n = suffixed base j ∧ contains m n = false ∧
        ∀ i, k ≤ i → i < j → contains m (suffixed base i) = true
  | 0, k, h => by simp [searchName] at h
  | fuel + 1, k, h => by
    simp only [searchName] at h
    split at h
    · next hc =>
      obtain ⟨j, hj, hn, hf, hall⟩ := searchName_some h
      refine ⟨j, by omega, hn, hf, fun i hi hij => ?_⟩
      by_cases hik : i = k
      · subst hik; exact hc
      · exact hall i (by omega) hij
    · next hc =>
      simp at h; subst h
      exact ⟨k, by omega, rfl, by simpa using hc, fun i h1 h2 => by omega⟩

/-- Pigeonhole: an injective family of `l.length + 1` elements cannot fit in `l`. -/
theorem pigeon {α : Type} [DecidableEq α] (f : Nat → α) (hf : ∀ a b, f a = f b → a = b) :
    ∀ (l : List α) (k : Nat), (∀ j, k ≤ j → j < k + (l.length + 1) → f j ∈ l) → False := by
  intro l k h
  let ks := List.range' k (l.length + 1)
  have hnd : (ks.map f).Nodup := by
    rw [List.nodup_iff_pairwise_ne, List.pairwise_map]
    have := List.nodup_range' (s := k) (n := l.length + 1)
    exact this.imp (fun hab he => hab (hf _ _ he))
  have hsub : ks.map f ⊆ l := by
    intro x hx
    rw [List.mem_map] at hx
    obtain ⟨j, hj, rfl⟩ := hx
    rw [List.mem_range'_1] at hj
    exact h j hj.1 hj.2
  have : (ks.map f).length ≤ l.length := (List.subperm_of_subset' hnd hsub)
  simp [ks] at this
  omega
where
  List.subperm_of_subset' {α : Type} [DecidableEq α] : ∀ {a b : List α}, a.Nodup → a ⊆ b → a.length ≤ b.length
    | [], b, _, _ => Nat.zero_le _
    | x :: a, b, hn, hs => by
      have hx : x ∈ b := hs (by simp)
      have hsub : a ⊆ b.erase x := by
        intro y hy
        have hyb : y ∈ b := hs (List.mem_cons_of_mem _ hy)
        have hne : y ≠ x := by
          intro e; subst e; exact (List.nodup_cons.1 hn).1 hy
        exact (List.mem_erase_of_ne hne).2 hyb
      have := List.subperm_of_subset' (List.nodup_cons.1 hn).2 hsub
      rw [List.length_erase_of_mem hx] at this
      have : 0 < b.length := List.length_pos_of_mem hx
      simp; omega

theorem makeUnique_terminates (m : List (Name × Obj)) (n : Name) : ∃ n', makeUnique m n = some n' := by
  unfold makeUnique makeUniqueFuel
  split
  · match h : searchName m n (m.length + 1) 1 with
    | some x => exact ⟨x, rfl⟩
    | none =>
      exfalso
      refine pigeon (suffixed n) (fun a b => suffixed_inj) (m.map (·.1)) 1 (fun j h1 h2 => ?_)
      rw [List.length_map] at h2
      exact contains_mem (searchName_none h j h1 h2)
  · exact ⟨n, rfl⟩

theorem makeUnique_spec {m : List (Name × Obj)} {n n' : Name} (h : makeUnique m n = some n') :
    contains m n' = false ∧
    ((contains m n = false ∧ n' = n) ∨
     (contains m n = true ∧ ∃ k, 1 ≤ k ∧ n' = suffixed n k ∧
        ∀ i, 1 ≤ i → i < k → contains m (suffixed n i) = true)) := by
  unfold makeUnique makeUniqueFuel at h
  split at h
  · next hc =>
    obtain ⟨j, h1, h2, h3, h4⟩ := searchName_some h
    exact ⟨h3, Or.inr ⟨hc, j, h1, h2, h4⟩⟩
  · next hc =>
    simp at h; subst h
    simp at hc
    exact ⟨hc, Or.inl ⟨hc, rfl⟩⟩

/-! ## Invariant -/

structure Inv (w : World) : Prop where
  back : ∀ n o, find w.reg.map n = some o → o ∈ w.reg.objects ∧ w.reg.nameOf o = n
  fwd : ∀ o ∈ w.reg.objects, find w.reg.map (w.reg.nameOf o) = some o
  nodup : w.reg.objects.Nodup
  fresh : ∀ o ∈ w.reg.objects, o < w.next
  own : ∀ o, w.reg.owned o = true ↔ o ∈ w.reg.objects

theorem Inv.valid {w : World} (hi : Inv w) (h : Obj) : valid w h = true ↔ h ∈ w.reg.objects := by
  unfold Registry.valid
  constructor
  · intro hv; simp at hv; exact (hi.own h).1 hv.2
  · intro hm; simp [hi.fresh h hm, (hi.own h).2 hm]

theorem inv_init : Inv init := by
  constructor <;> simp [init, find]

theorem inv_step (ty : Obj → Name) (w : World) (op : Op) (hi : Inv w) : Inv (step ty w op).1 := by
  cases op with
  | create name =>
    simp only [step, add]
    generalize hnm : (if name = [] then ty w.next ++ ['.'] ++ decimal w.next else name) = nm
    obtain ⟨n, hn⟩ := makeUnique_terminates w.reg.map nm
    rw [hn]
    have hs := (makeUnique_spec hn).1
    have hfn : find w.reg.map n = none := by simpa [contains] using hs
    have hfresh : w.next ∉ w.reg.objects := fun hm => Nat.lt_irrefl _ (hi.fresh _ hm)
    constructor
    · intro k o h
      simp only [find_assign] at h
      split at h
      · next hk => simp at h; subst h; simp [upd, hk]
      · next hk =>
        obtain ⟨h1, h2⟩ := hi.back k o h
        have : o ≠ w.next := fun e => hfresh (e ▸ h1)
        simp [h1, upd, this, h2]
    · intro o ho
      simp at ho
      rcases ho with ho | ho
      · have hne : o ≠ w.next := fun e => hfresh (e ▸ ho)
        simp only [upd, hne, if_false, find_assign]
        have hf := hi.fwd o ho
        have : w.reg.nameOf o ≠ n := by intro e; rw [e, hfn] at hf; simp at hf
        simp [this, hf]
      · subst ho; simp [upd, find_assign]
    · simp only [List.nodup_append]
      refine ⟨hi.nodup, by simp, ?_⟩
      intro a ha b hb
      simp at hb; subst hb
      exact fun e => hfresh (e ▸ ha)
    · intro o ho
      simp at ho
      rcases ho with ho | ho
      · exact Nat.lt_succ_of_lt (hi.fresh o ho)
      · subst ho; exact Nat.lt_succ_self _
    · intro o
      simp only [upd]
      by_cases h : o = w.next
      · simp [h]
      · simp [h, hi.own]
  | rename h name =>
    simp only [step]
    split
    · next hv =>
      have hm := (hi.valid h).1 hv
      simp only [setName]
      obtain ⟨n, hn⟩ := makeUnique_terminates w.reg.map name
      rw [hn]
      have hs := (makeUnique_spec hn).1
      have hfn : find w.reg.map n = none := by simpa [contains] using hs
      have hne : n ≠ w.reg.nameOf h := by intro e; rw [e, hi.fwd h hm] at hfn; simp at hfn
      simp only [hne, if_false]
      constructor
      · intro k o hk
        simp only [find_assign, find_erase] at hk
        split at hk
        · next e => simp at hk; subst hk; simp [hm, upd, e]
        · next e =>
          split at hk
          · simp at hk
          · next e2 =>
            obtain ⟨h1, h2⟩ := hi.back k o hk
            have : o ≠ h := by intro e3; subst e3; exact e2 h2.symm
            simp [h1, upd, this, h2]
      · intro o ho
        by_cases e : o = h
        · subst e; simp [upd, find_assign]
        · simp only [upd, e, if_false, find_assign, find_erase]
          have hf := hi.fwd o ho
          have h1 : w.reg.nameOf o ≠ n := by intro e; rw [e, hfn] at hf; simp at hf
          have h2 : w.reg.nameOf o ≠ w.reg.nameOf h := by
            intro e4
            rw [e4, hi.fwd h hm] at hf
            simp at hf; exact e hf.symm
          simp [h1, h2, hf]
      · exact hi.nodup
      · exact hi.fresh
      · exact hi.own
    · exact hi
  | delete h =>
    simp only [step]
    split
    · next hv =>
      have hm := (hi.valid h).1 hv
      simp only [remove, hm, if_true]
      constructor
      · intro k o hk
        simp only [find_erase] at hk
        split at hk
        · simp at hk
        · next e =>
          obtain ⟨h1, h2⟩ := hi.back k o hk
          have : o ≠ h := by intro e3; subst e3; exact e h2.symm
          exact ⟨(List.mem_erase_of_ne this).2 h1, h2⟩
      · intro o ho
        have ho' := (hi.nodup.mem_erase_iff).1 ho
        have hf := hi.fwd o ho'.2
        have h2 : w.reg.nameOf o ≠ w.reg.nameOf h := by
          intro e4
          rw [e4, hi.fwd h hm] at hf
          simp at hf; exact ho'.1 hf.symm
        simp [find_erase, h2, hf]
      · exact hi.nodup.erase h
      · intro o ho; exact hi.fresh o (List.mem_of_mem_erase ho)
      · intro o
        simp only [upd]
        by_cases e : o = h
        · subst e; simp [hi.nodup.mem_erase_iff]
        · simp [e, hi.own, List.mem_erase_of_ne e]
    · exact hi
  | lookup name =>
    simp only [step]
    split <;> exact hi
  | query h =>
    simp only [step]
    split <;> exact hi

theorem inv_run (ty : Obj → Name) (ops : List Op) : ∀ (w : World), Inv w → Inv (run ty w ops).1 := by
  induction ops with
  | nil => intro w h; exact h
  | cons op ops ih => intro w h; exact ih _ (inv_step ty w op h)

end Huira.Registry
