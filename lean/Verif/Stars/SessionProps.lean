import Verif.Stars.Session
/-!
# C125: the stars of a scene
-/
namespace Huira.StarSess

open Phot

set_option linter.unusedSimpArgs false

variable {n : ℕ} (env : Env n)

/-! ## Specification -/

/-- A star of the catalogue at an epoch given in years since J2000: its place with proper motion (C98), its light as a black
body. -/
def IsStarAt (d : Datum) (years : ℝ) (s : Star n) : Prop :=
  s.direction = starDirection d.ra d.dec d.pmRA d.pmDEC years ∧
  s.irradiance = starIrradiance env.bins d.temperature d.solidAngle

/-- The sky of a catalogue at an epoch: one star for every entry, in the order of the catalogue. -/
def IsSkyAt (data : List Datum) (years : ℝ) (stars : List (Star n)) : Prop := List.Forall₂ (fun d s => IsStarAt env d years s) data stars

/-- The epoch of the last of these calls that asks for one that can be converted, or `et`. -/
def lastEpoch (et : ℝ) : List (Op n) → ℝ
  | [] => et
  | .update _ e :: ops => lastEpoch (if (env.years e).isSome then e else et) ops
  | _ :: ops => lastEpoch et ops

/-- A call of `update_star_epoch`. -/
def Op.IsUpdate : Op n → Prop
  | .update .. => True
  | _ => False

/-! ## Lemmas -/

theorem foldlM_set {α : Type} (g : ℕ → α → Option α) (l : List ℕ) (hnd : l.Nodup) (a : List α)
    (hl : ∀ i ∈ l, ∃ x y, a[i]? = some x ∧ g i x = some y) :
    ∃ b, l.foldlM (fun (a : List α) i => do let x ← a[i]?; let y ← g i x; return a.set i y) a = some b ∧
      b.length = a.length ∧ ∀ i : ℕ, b[i]? = if i ∈ l then (a[i]?).bind (g i) else a[i]? := by
  induction l generalizing a with
  | nil => exact ⟨a, rfl, rfl, fun i => by simp⟩
  | cons j l ih =>
    obtain ⟨x, y, hx, hy⟩ := hl j List.mem_cons_self
    have hnd' := List.nodup_cons.1 hnd
    have hlen : j < a.length := (List.getElem?_eq_some_iff.1 hx).1
    obtain ⟨b, hb, hbl, hbi⟩ := ih hnd'.2 (a.set j y) (fun i hi => by
      have hne : j ≠ i := fun e => hnd'.1 (e ▸ hi)
      rw [List.getElem?_set_ne hne]
      exact hl i (List.mem_cons_of_mem _ hi))
    refine ⟨b, ?_, by rw [hbl, List.length_set], fun i => ?_⟩
    · rw [List.foldlM_cons]
      simp only [hx, hy, Option.bind_eq_bind, Option.bind_some, Option.pure_def]
      exact hb
    · rw [hbi i]
      by_cases hij : i = j
      · subst hij
        rw [if_neg hnd'.1, if_pos List.mem_cons_self, hx]
        simp [hy, hlen]
      · have hij' : j ≠ i := fun e => hij e.symm
        rw [List.getElem?_set_ne hij']
        simp [List.mem_cons, hij]

theorem order_nodup (o : Order) (k : ℕ) : (o.order k).Nodup := (o.perm k).nodup_iff.2 List.nodup_range
theorem order_mem (o : Order) (k i : ℕ) : i ∈ o.order k ↔ i < k := by rw [(o.perm k).mem_iff, List.mem_range]

/-- The loop of the loading calls works and makes the same list in every order. -/
theorem fill_eq (o : Order) (data : List Datum) (y : ℝ) : fill env o data y = some (data.map fun d => Star.make env d y) := by
  unfold fill
  have h := foldlM_set (fun i (_ : Star n) => (data[i]?).map fun d => Star.make env d y) (o.order data.length)
    (order_nodup o _) (List.replicate data.length (Star.blank n)) (fun i hi => by
      have hi' := (order_mem o _ _).1 hi
      refine ⟨Star.blank n, Star.make env data[i] y, ?_, ?_⟩
      · simp [List.getElem?_replicate, hi']
      · simp [hi'])
  obtain ⟨b, hb, hbl, hbi⟩ := h
  have hf : (fun (stars : List (Star n)) (i : ℕ) => (do
      let d ← data[i]?
      let _ ← stars[i]?
      return stars.set i (Star.make env d y) : Option (List (Star n)))) =
      (fun (a : List (Star n)) i => do
        let x ← a[i]?
        let y ← (fun i (_ : Star n) => (data[i]?).map fun d => Star.make env d y) i x
        return a.set i y) := by
    funext stars i
    cases h1 : data[i]? <;> cases h2 : stars[i]? <;> simp [h1, h2]
  rw [hf, hb]
  congr 1
  apply List.ext_getElem?
  intro i
  rw [hbi i, List.getElem?_map]
  by_cases hi : i < data.length
  · rw [if_pos ((order_mem o _ _).2 hi)]
    simp [List.getElem?_replicate, hi]
  · rw [if_neg (fun h => hi ((order_mem o _ _).1 h))]
    simp [List.getElem?_replicate, hi]

/-- The loop of the updating call works when there are as many stars as entries and makes the same list in every order. -/
theorem move_eq (o : Order) (stars : List (Star n)) (data : List Datum) (y : ℝ) (hl : stars.length = data.length) :
    move o stars data y = some (List.zipWith (fun s d => Star.update s d y) stars data) := by
  unfold move
  have h := foldlM_set (fun i (s : Star n) => (data[i]?).map fun d => s.update d y) (o.order stars.length)
    (order_nodup o _) stars (fun i hi => by
      have hi' := (order_mem o _ _).1 hi
      refine ⟨stars[i], stars[i].update (data[i]'(by omega)) y, ?_, ?_⟩
      · simp [hi']
      · simp [show i < data.length by omega])
  obtain ⟨b, hb, hbl, hbi⟩ := h
  have hf : (fun (stars : List (Star n)) (i : ℕ) => (do
      let d ← data[i]?
      let s ← stars[i]?
      return stars.set i (s.update d y) : Option (List (Star n)))) =
      (fun (a : List (Star n)) i => do
        let x ← a[i]?
        let y ← (fun i (s : Star n) => (data[i]?).map fun d => s.update d y) i x
        return a.set i y) := by
    funext stars i
    cases h1 : data[i]? <;> cases h2 : stars[i]? <;> simp [h1, h2]
  rw [hf, hb]
  congr 1
  apply List.ext_getElem?
  intro i
  rw [hbi i, List.getElem?_zipWith]
  by_cases hi : i < stars.length
  · rw [if_pos ((order_mem o _ _).2 hi)]
    simp [hi, show i < data.length by omega]
  · rw [if_neg (fun h => hi ((order_mem o _ _).1 h))]
    simp [hi, show ¬ i < data.length by omega]

theorem sky_map (data : List Datum) (y : ℝ) : IsSkyAt env data y (data.map fun d => Star.make env d y) := by
  unfold IsSkyAt
  rw [List.forall₂_map_right_iff]
  exact List.forall₂_same.2 (fun d _ => ⟨rfl, rfl⟩)

theorem sky_move (data : List Datum) (y y' : ℝ) (stars : List (Star n)) (h : IsSkyAt env data y stars) :
    IsSkyAt env data y' (List.zipWith (fun s d => Star.update s d y') stars data) := by
  unfold IsSkyAt at *
  induction h with
  | nil => exact .nil
  | cons h _ ih => exact .cons ⟨rfl, h.2⟩ ih

/-- Between calls: a dynamic scene shows the sky of its catalogue at its epoch. -/
def Inv (s : St n) : Prop := s.isDynamic = true → ∃ y, env.years s.epoch = some y ∧ IsSkyAt env s.data y s.stars

theorem step_ok {s : St n} (hi : Inv env s) (op : Op n) : ∃ r, step env s op = some r ∧ Inv env r.1 := by
  cases op with
  | set stars => exact ⟨_, rfl, fun h => by simp at h⟩
  | load o path et mm =>
    simp only [step]
    cases env.read path mm with
    | none => exact ⟨_, rfl, hi⟩
    | some data =>
      cases env.years et with
      | none => exact ⟨_, rfl, hi⟩
      | some y =>
        simp only [fill_eq, Option.map_some]
        exact ⟨_, rfl, fun h => by simp at h⟩
  | loadDynamic o path et mm =>
    simp only [step]
    cases env.read path mm with
    | none => exact ⟨_, rfl, hi⟩
    | some data =>
      cases hy : env.years et with
      | none => exact ⟨_, rfl, hi⟩
      | some y =>
        simp only [fill_eq, Option.map_some]
        exact ⟨_, rfl, fun _ => ⟨y, hy, sky_map env data y⟩⟩
  | update o et =>
    simp only [step]
    by_cases hd : s.isDynamic = false
    · rw [if_pos hd]; exact ⟨_, rfl, hi⟩
    · rw [if_neg hd]
      by_cases he : et = s.epoch
      · rw [if_pos he]; exact ⟨_, rfl, hi⟩
      · rw [if_neg he]
        cases hy : env.years et with
        | none => exact ⟨_, rfl, hi⟩
        | some y =>
          obtain ⟨y0, _, hs⟩ := hi (by simpa using hd)
          simp only [move_eq o s.stars s.data y hs.length_eq.symm, Option.map_some]
          exact ⟨_, rfl, fun _ => ⟨y, hy, sky_move env s.data y0 y s.stars hs⟩⟩

theorem run_ok (ops : List (Op n)) {s : St n} (hi : Inv env s) : ∃ s', run env s ops = some s' ∧ Inv env s' := by
  induction ops generalizing s with
  | nil => exact ⟨s, rfl, hi⟩
  | cons op ops ih =>
    obtain ⟨r, hr, hi'⟩ := step_ok env hi op
    obtain ⟨s', h1, h2⟩ := ih hi'
    exact ⟨s', by rw [run, hr]; exact h1, h2⟩

theorem inv_start : Inv env ({} : St n) := fun h => by simp at h

theorem run_append (ops more : List (Op n)) (s : St n) :
    run env s (ops ++ more) = (run env s ops).bind fun s' => run env s' more := by
  induction ops generalizing s with
  | nil => rfl
  | cons op ops ih =>
    rw [List.cons_append, run, run]
    cases step env s op with
    | none => rfl
    | some r => exact ih r.1

theorem updates_fixed (after : List (Op n)) (hu : ∀ op ∈ after, op.IsUpdate) {s : St n} (hd : s.isDynamic = false) :
    run env s after = some s := by
  induction after with
  | nil => rfl
  | cons op ops ih =>
    have h0 := hu op List.mem_cons_self
    cases op with
    | update o et =>
      rw [run, step, if_pos hd]
      exact ih (fun op h => hu op (List.mem_cons_of_mem _ h))
    | _ => exact h0.elim

theorem updates_moving (after : List (Op n)) (hu : ∀ op ∈ after, op.IsUpdate) {s : St n} (hd : s.isDynamic = true) {y : ℝ}
    (hy : env.years s.epoch = some y) (hs : IsSkyAt env s.data y s.stars) :
    ∃ s' y', run env s after = some s' ∧ env.years (lastEpoch env s.epoch after) = some y' ∧
      IsSkyAt env s.data y' s'.stars := by
  induction after generalizing s y with
  | nil => exact ⟨s, y, rfl, hy, hs⟩
  | cons op ops ih =>
    have h0 := hu op List.mem_cons_self
    have hu' : ∀ op ∈ ops, op.IsUpdate := fun op h => hu op (List.mem_cons_of_mem _ h)
    cases op with
    | update o et =>
      rw [run, step, if_neg (by rw [hd]; decide), lastEpoch]
      by_cases he : et = s.epoch
      · rw [if_pos he, if_pos (by rw [he, hy]; rfl), he]
        exact ih hu' hd hy hs
      · rw [if_neg he]
        cases hy' : env.years et with
        | none =>
          rw [if_neg (by simp)]
          exact ih hu' hd hy hs
        | some y' =>
          rw [if_pos (Option.isSome_some)]
          simp only [move_eq o s.stars s.data y' hs.length_eq.symm, Option.map_some, Option.bind_some]
          exact ih (s := { s with stars := _, epoch := et }) hu' hd hy' (sky_move env s.data y y' s.stars hs)
    | _ => exact h0.elim

/-! ## Theorems -/

/-- C125: no history of calls, with any catalogues and any orders of the loops, touches memory outside of the lists of
stars. -/
theorem C125_memory (ops : List (Op n)) : (run env {} ops).isSome := by
  obtain ⟨s, h, _⟩ := run_ok env ops (inv_start env)
  rw [h]; rfl

/-- C125: after `load_dynamic_stars`, whatever happened before, the scene shows the sky of the catalogue at the epoch asked
for last: updates do not accumulate, an update that fails changes nothing, and brightness never changes. -/
theorem C125_dynamic (before after : List (Op n)) (o : Order) (path : String) (et mm : ℝ) (data : List Datum)
    (hr : env.read path mm = some data) (hy : (env.years et).isSome) (hu : ∀ op ∈ after, op.IsUpdate) :
    ∃ s y, run env {} (before ++ .loadDynamic o path et mm :: after) = some s ∧
      env.years (lastEpoch env et after) = some y ∧ IsSkyAt env data y s.stars := by
  obtain ⟨s0, h0, _⟩ := run_ok env before (inv_start env)
  obtain ⟨y, hy⟩ := Option.isSome_iff_exists.1 hy
  rw [run_append, h0, Option.bind_some, run, step, hr]
  simp only [hy, fill_eq, Option.map_some, Option.bind_some]
  obtain ⟨s', y', h1, h2, h3⟩ := updates_moving env after hu
    (s := { isDynamic := true, stars := data.map fun d => Star.make env d y, data := data, epoch := et }) rfl hy
    (sky_map env data y)
  exact ⟨s', y', h1, h2, h3⟩

/-- C125: after `load_stars`, whatever happened before, the scene shows the sky of the catalogue at the given time, and
`update_star_epoch` does not change it. -/
theorem C125_static (before after : List (Op n)) (o : Order) (path : String) (et mm : ℝ) (data : List Datum) (y : ℝ)
    (hr : env.read path mm = some data) (hy : env.years et = some y) (hu : ∀ op ∈ after, op.IsUpdate) :
    ∃ s, run env {} (before ++ .load o path et mm :: after) = some s ∧ IsSkyAt env data y s.stars := by
  obtain ⟨s0, h0, _⟩ := run_ok env before (inv_start env)
  rw [run_append, h0, Option.bind_some, run, step, hr]
  simp only [hy, fill_eq, Option.map_some, Option.bind_some]
  rw [updates_fixed env after hu rfl]
  exact ⟨_, rfl, sky_map env data y⟩

/-- C125: after `set_stars`, whatever happened before, the scene shows exactly these stars, and `update_star_epoch` does not
change them. -/
theorem C125_set (before after : List (Op n)) (stars : List (Star n)) (hu : ∀ op ∈ after, op.IsUpdate) :
    ∃ s, run env {} (before ++ .set stars :: after) = some s ∧ s.stars = stars := by
  obtain ⟨s0, h0, _⟩ := run_ok env before (inv_start env)
  rw [run_append, h0, Option.bind_some, run, step, Option.bind_some, updates_fixed env after hu rfl]
  exact ⟨_, rfl, rfl⟩

/-- C125: a call that throws, or only warns, might as well not have been made. -/
theorem C125_failed (before after : List (Op n)) (op : Op n) (s s' : St n) (o : Out) (h : run env {} before = some s)
    (hs : step env s op = some (s', o)) (ho : o ≠ .done) : run env {} (before ++ op :: after) = run env {} (before ++ after) := by
  have hss : s' = s := by
    cases op with
    | set stars => simp only [step, Option.some.injEq, Prod.mk.injEq] at hs; exact absurd hs.2.symm ho
    | load o' path et mm =>
      simp only [step] at hs
      cases h1 : env.read path mm with
      | none => rw [h1] at hs; simp only [Option.some.injEq, Prod.mk.injEq] at hs; exact hs.1.symm
      | some data =>
        rw [h1] at hs
        cases h2 : env.years et with
        | none => rw [h2] at hs; simp only [Option.some.injEq, Prod.mk.injEq] at hs; exact hs.1.symm
        | some y =>
          rw [h2] at hs
          simp only [fill_eq, Option.map_some, Option.some.injEq, Prod.mk.injEq] at hs; exact absurd hs.2.symm ho
    | loadDynamic o' path et mm =>
      simp only [step] at hs
      cases h1 : env.read path mm with
      | none => rw [h1] at hs; simp only [Option.some.injEq, Prod.mk.injEq] at hs; exact hs.1.symm
      | some data =>
        rw [h1] at hs
        cases h2 : env.years et with
        | none => rw [h2] at hs; simp only [Option.some.injEq, Prod.mk.injEq] at hs; exact hs.1.symm
        | some y =>
          rw [h2] at hs
          simp only [fill_eq, Option.map_some, Option.some.injEq, Prod.mk.injEq] at hs; exact absurd hs.2.symm ho
    | update o' et =>
      simp only [step] at hs
      split_ifs at hs with h1 h2
      · simp only [Option.some.injEq, Prod.mk.injEq] at hs; exact hs.1.symm
      · simp only [Option.some.injEq, Prod.mk.injEq] at hs; exact hs.1.symm
      · cases h3 : env.years et with
        | none => rw [h3] at hs; simp only [Option.some.injEq, Prod.mk.injEq] at hs; exact hs.1.symm
        | some y =>
          rw [h3] at hs
          simp only [Option.map_eq_some_iff, Prod.mk.injEq] at hs
          obtain ⟨_, _, _, h4⟩ := hs
          exact absurd h4.symm ho
  subst hss
  rw [run_append, run_append, h, Option.bind_some, Option.bind_some, run, hs, Option.bind_some]

/-- C125: which calls throw or warn: loading throws exactly when the catalogue cannot be read or the time not be converted;
an update of stars that are not dynamic warns. -/
theorem C125_outcome (s : St n) (o : Order) (path : String) (et mm : ℝ) :
    ((∃ s', step env s (.load o path et mm) = some (s', .throws)) ↔ env.read path mm = none ∨ env.years et = none) ∧
    ((∃ s', step env s (.loadDynamic o path et mm) = some (s', .throws)) ↔ env.read path mm = none ∨ env.years et = none) ∧
    ((∃ s', step env s (.update o et) = some (s', .warned)) ↔ s.isDynamic = false) := by
  simp only [step]
  refine ⟨?_, ?_, ?_⟩
  · cases env.read path mm <;> cases env.years et <;> simp [fill_eq]
  · cases env.read path mm <;> cases env.years et <;> simp [fill_eq]
  · split_ifs with h1 h2
    · simp [h1]
    · simp [h1]
    · cases env.years et <;> simp [h1]

/-! ## A concrete case -/

/-- Two stars, one of them moving; years are `et` itself. -/
noncomputable def sampleEnv : Env 1 where
  read := fun p _ => if p = "tycho2.hcrd" then some [⟨0, 0, 0, 0, 1, 5000⟩, ⟨1, 0.5, 100, -30, 1, 4000⟩] else none
  years := fun et => some et
  bins := fun _ => (4e-7, 7e-7)

/-- The indices in ascending order. -/
def ascending : Order := ⟨List.range, fun _ => List.Perm.refl _⟩

/-- The indices in descending order. -/
def descending : Order := ⟨fun n => (List.range n).reverse, fun n => List.reverse_perm _⟩

example : ∃ s y, run sampleEnv {} ([.set [Star.blank 1]] ++ .loadDynamic ascending "tycho2.hcrd" 0 7 ::
      [.update descending 10, .update ascending 25]) = some s ∧
    sampleEnv.years (lastEpoch sampleEnv 0 [.update descending 10, .update ascending 25]) = some y ∧
    IsSkyAt sampleEnv [⟨0, 0, 0, 0, 1, 5000⟩, ⟨1, 0.5, 100, -30, 1, 4000⟩] y s.stars :=
  C125_dynamic sampleEnv _ _ _ _ _ _ _ rfl rfl (by simp [Op.IsUpdate])

end Huira.StarSess
