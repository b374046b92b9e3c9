import Verif.Registry.Lemmas
/-!
# Property theorems C01-C04 (names and handles)

Specification vocabulary: a *trace* is the list of calls with their observable results.  An object is
*created* by a trace if some `create` returned its handle, *deleted* if a `delete` on it succeeded, *live* if
created and not deleted.
-/
set_option linter.unusedSimpArgs false
namespace Huira.Registry

/-- Some call of the trace created `o`. -/
def Created (tr : List (Op × Out)) (o : Obj) : Prop := ∃ n, (Op.create n, Out.handle o) ∈ tr
/-- Some call of the trace deleted `o`. -/
def Deleted (tr : List (Op × Out)) (o : Obj) : Prop := (Op.delete o, Out.done) ∈ tr
/-- In the scene after the trace. -/
def Live (tr : List (Op × Out)) (o : Obj) : Prop := Created tr o ∧ ¬ Deleted tr o

/-! ### Connection between trace and state -/

theorem step_next (ty w op) : w.next ≤ (step ty w op).1.next := by
  cases op <;> simp only [step]
  · split <;> simp
  · split
    · split <;> simp
    · simp
  · split
    · split <;> simp
    · simp
  · split <;> simp
  · split <;> simp

theorem created_ge (ty : Obj → Name) (ops : List Op) : ∀ (w : World) (o : Obj),
    Created (run ty w ops).2 o → w.next ≤ o := by
  induction ops with
  | nil => intro w o h; simp [Created, run] at h
  | cons op ops ih =>
    intro w o h
    obtain ⟨n, hn⟩ := h
    simp only [run, List.mem_cons, Prod.mk.injEq] at hn
    rcases hn with ⟨h1, h2⟩ | hn
    · subst h1
      simp only [step, add] at h2
      split at h2
      · simp at h2
      · simp at h2; exact h2 ▸ Nat.le_refl _
    · exact Nat.le_trans (step_next ty w op) (ih _ o ⟨n, hn⟩)

theorem setName_objects {r r' : Reg} {o : Obj} {n : Name} (h : setName r o n = some r') :
    r'.objects = r.objects := by
  simp only [setName] at h
  split at h
  · simp at h
  · split at h <;> (simp at h; subst h; rfl)

theorem step_objects (ty : Obj → Name) (w : World) (hi : Inv w) (op : Op) (o : Obj) :
    o ∈ (step ty w op).1.reg.objects ↔
      (o ∈ w.reg.objects ∨ ∃ n, op = .create n ∧ (step ty w op).2 = .handle o) ∧
        ¬ (op = .delete o ∧ (step ty w op).2 = .done) := by
  cases op with
  | create name =>
    simp only [step, add]
    generalize (if name = [] then ty w.next ++ ['.'] ++ decimal w.next else name) = nm
    obtain ⟨n, hn⟩ := makeUnique_terminates w.reg.map nm
    simp [hn, eq_comm]
  | rename k name =>
    simp only [step]
    split
    · split
      · simp
      · next h => simp [setName_objects h]
    · simp
  | delete k =>
    simp only [step]
    split
    · next hv =>
      have hm := (hi.valid k).1 hv
      simp only [remove, hm, if_true]
      by_cases e : o = k
      · subst e; simp [hi.nodup.mem_erase_iff]
      · simp [List.mem_erase_of_ne e, Ne.symm e]
    · simp
  | lookup name => simp only [step]; split <;> simp
  | query k => simp only [step]; split <;> simp

theorem live_iff_gen (ty : Obj → Name) (ops : List Op) : ∀ (w : World), Inv w → ∀ o,
    (o ∈ (run ty w ops).1.reg.objects ↔
      (o ∈ w.reg.objects ∨ Created (run ty w ops).2 o) ∧ ¬ Deleted (run ty w ops).2 o) := by
  induction ops with
  | nil => intro w hi o; simp [run, Created, Deleted]
  | cons op ops ih =>
    intro w hi o
    have hi' := inv_step ty w op hi
    have h := ih _ hi' o
    have hge := created_ge ty ops (step ty w op).1 o
    have hso := step_objects ty w hi op o
    have hdel : op = .delete o → (step ty w op).2 = .done → o < (step ty w op).1.next := by
      intro h1 h2
      have : o ∈ w.reg.objects := by
        subst h1
        simp only [step] at h2
        split at h2
        · next hv => exact (hi.valid o).1 hv
        · simp at h2
      exact Nat.lt_of_lt_of_le (hi.fresh o this) (step_next ty w op)
    have e2 : (run ty w (op :: ops)).2 = (op, (step ty w op).2) :: (run ty (step ty w op).1 ops).2 := rfl
    have hc : Created (run ty w (op :: ops)).2 o ↔
        (∃ n, op = .create n ∧ (step ty w op).2 = .handle o) ∨ Created (run ty (step ty w op).1 ops).2 o := by
      rw [e2]; unfold Created
      constructor
      · rintro ⟨n, hn⟩
        simp only [List.mem_cons, Prod.mk.injEq] at hn
        rcases hn with ⟨a, b⟩ | hn
        · exact Or.inl ⟨n, a.symm, b.symm⟩
        · exact Or.inr ⟨n, hn⟩
      · rintro (⟨n, a, b⟩ | ⟨n, hn⟩)
        · exact ⟨n, by simp [a, ← b]⟩
        · exact ⟨n, List.mem_cons_of_mem _ hn⟩
    have hd : Deleted (run ty w (op :: ops)).2 o ↔
        (op = .delete o ∧ (step ty w op).2 = .done) ∨ Deleted (run ty (step ty w op).1 ops).2 o := by
      rw [e2]; unfold Deleted
      simp only [List.mem_cons, Prod.mk.injEq]
      rw [eq_comm (a := Op.delete o), eq_comm (a := Out.done)]
    rw [hc, hd]
    show o ∈ (run ty (step ty w op).1 ops).1.reg.objects ↔ _
    rw [h, hso]
    constructor
    · rintro ⟨(⟨h1, h2⟩ | h1), h3⟩
      · rcases h1 with h1 | h1
        · exact ⟨Or.inl h1, fun hx => hx.elim h2 h3⟩
        · exact ⟨Or.inr (Or.inl h1), fun hx => hx.elim h2 h3⟩
      · refine ⟨Or.inr (Or.inr h1), fun hx => hx.elim (fun hx => ?_) h3⟩
        exact absurd (hge h1) (Nat.not_le_of_lt (hdel hx.1 hx.2))
    · rintro ⟨h1, h2⟩
      refine ⟨?_, fun hx => h2 (Or.inr hx)⟩
      rcases h1 with h1 | h1 | h1
      · exact Or.inl ⟨Or.inl h1, fun hx => h2 (Or.inl hx)⟩
      · exact Or.inl ⟨Or.inr h1, fun hx => h2 (Or.inl hx)⟩
      · exact Or.inr h1

/-- Objects in the registry are exactly the live ones. -/
theorem live_iff (ty : Obj → Name) (ops : List Op) (o : Obj) :
    Live (run ty init ops).2 o ↔ o ∈ (run ty init ops).1.reg.objects := by
  rw [live_iff_gen ty ops init inv_init o]
  simp [Live, init]

/-- The answer the API gives next, after history `ops`. -/
def answer (ty : Obj → Name) (ops : List Op) (op : Op) : Out := (step ty (run ty init ops).1 op).2

/-! ### C01 -/

/-- C01: after any history, asking a live object for its name succeeds, and looking that name up returns
exactly that object. -/
theorem C01_lookup_of_name (ty : Obj → Name) (ops : List Op) (o : Obj) (h : Live (run ty init ops).2 o) :
    ∃ n, answer ty ops (.query o) = .named n ∧ answer ty ops (.lookup n) = .handle o := by
  have hi := inv_run ty ops init inv_init
  have hm := (live_iff ty ops o).1 h
  refine ⟨(run ty init ops).1.reg.nameOf o, ?_, ?_⟩
  · simp [answer, step, (hi.valid o).2 hm]
  · simp [answer, step, hi.fwd o hm]

/-- C01: no two live objects report the same name. -/
theorem C01_names_distinct (ty : Obj → Name) (ops : List Op) (a b : Obj) (n : Name)
    (ha : answer ty ops (.query a) = .named n) (hb : answer ty ops (.query b) = .named n) : a = b := by
  have hi := inv_run ty ops init inv_init
  simp only [answer, step] at ha hb
  split at ha
  · next va =>
    split at hb
    · next vb =>
      simp at ha hb
      have h1 := hi.fwd a ((hi.valid a).1 va)
      have h2 := hi.fwd b ((hi.valid b).1 vb)
      rw [ha] at h1; rw [hb, h1] at h2
      simpa using h2
    · simp at hb
  · simp at ha

/-- C01: a lookup returns only live objects, and only under the name they report; every other name throws. -/
theorem C01_lookup_sound (ty : Obj → Name) (ops : List Op) (n : Name) :
    (∃ o, answer ty ops (.lookup n) = .handle o ∧ Live (run ty init ops).2 o ∧
        answer ty ops (.query o) = .named n)
    ∨ (answer ty ops (.lookup n) = .throw ∧
        ∀ o, Live (run ty init ops).2 o → answer ty ops (.query o) ≠ .named n) := by
  have hi := inv_run ty ops init inv_init
  cases hf : find (run ty init ops).1.reg.map n with
  | some o =>
    left
    obtain ⟨h1, h2⟩ := hi.back n o hf
    refine ⟨o, ?_, (live_iff ty ops o).2 h1, ?_⟩
    · simp [answer, step, hf]
    · simp [answer, step, (hi.valid o).2 h1, h2]
  | none =>
    right
    refine ⟨by simp [answer, step, hf], fun o ho hq => ?_⟩
    have hm := (live_iff ty ops o).1 ho
    simp [answer, step, (hi.valid o).2 hm] at hq
    have := hi.fwd o hm
    rw [hq, hf] at this
    simp at this

/-- The history used in the examples: two objects created with the same name, one with a name that looks
generated, the first one renamed and the second deleted. -/
def demo : List Op := [.create ['a'], .create ['a'], .create ['a', '_', '1'], .rename 0 ['b'], .delete 1]
def demoTy : Obj → Name := fun _ => ['M']

example : Live (run demoTy init demo).2 2 := by
  refine ⟨⟨['a', '_', '1'], by decide⟩, show ¬ _ ∈ _ by decide⟩

example : answer demoTy demo (.query 2) = .named ['a', '_', '1', '_', '1'] := by decide

/-- The full C01 also claims every live object has a non-empty name. -/
def C01_nonempty_full : Prop :=
  ∀ (ty : Obj → Name) (ops : List Op) (o : Obj), Live (run ty init ops).2 o → answer ty ops (.query o) ≠ .named []

/-- The code violates it: `set_name` does not treat the empty name like `add` does. -/
theorem C01_nonempty_violated : ¬ C01_nonempty_full := by
  intro h
  refine h demoTy [.create ['a'], .rename 0 []] 0 ?_ (by decide)
  exact ⟨⟨['a'], by decide⟩, show ¬ _ ∈ _ by decide⟩

/-- C01: if no rename asks for the empty name, every live object has a non-empty name. -/
theorem C01_nonempty_partial (ty : Obj → Name) (ops : List Op) (hops : ∀ h, Op.rename h [] ∉ ops) (o : Obj) :
    answer ty ops (.query o) ≠ .named [] := by
  have key : ∀ (ops : List Op) (w : World), Inv w → (∀ h, Op.rename h [] ∉ ops) →
      (∀ o ∈ w.reg.objects, w.reg.nameOf o ≠ []) →
      ∀ o ∈ (run ty w ops).1.reg.objects, (run ty w ops).1.reg.nameOf o ≠ [] := by
    intro ops
    induction ops with
    | nil => intro w _ _ h; exact h
    | cons op ops ih =>
      intro w hi hr h
      refine ih _ (inv_step ty w op hi) (fun k hk => hr k (List.mem_cons_of_mem _ hk)) ?_
      have muq : ∀ {m : List (Name × Obj)} {n n' : Name}, n ≠ [] → makeUnique m n = some n' → n' ≠ [] := by
        intro m n n' hn hu
        rcases (makeUnique_spec hu).2 with ⟨_, e⟩ | ⟨_, k, _, e, _⟩
        · rw [e]; exact hn
        · rw [e]; exact suffixed_ne_nil n k
      cases op with
      | create name =>
        simp only [step, add]
        generalize hnm : (if name = [] then ty w.next ++ ['.'] ++ decimal w.next else name) = nm
        obtain ⟨n, hn⟩ := makeUnique_terminates w.reg.map nm
        have hnn : nm ≠ [] := by
          rw [← hnm]; split
          · simp
          · assumption
        simp only [hn]
        intro o ho
        simp only [upd]
        split
        · exact muq hnn hn
        · next e =>
          simp at ho
          rcases ho with ho | ho
          · exact h o ho
          · exact absurd ho e
      | rename k name =>
        have hnn : name ≠ [] := by
          intro e; subst e; exact hr k (by simp)
        simp only [step]
        split
        · simp only [setName]
          obtain ⟨n, hn⟩ := makeUnique_terminates w.reg.map name
          rw [hn]
          by_cases e : n = w.reg.nameOf k
          · simp only [e, if_true]; exact h
          · simp only [e, if_false]
            intro o ho
            simp only [upd]
            split
            · exact muq hnn hn
            · exact h o ho
        · exact h
      | delete k =>
        simp only [step]
        split
        · next hv =>
          have hm := (hi.valid k).1 hv
          simp only [remove, hm, if_true]
          intro o ho
          exact h o (List.mem_of_mem_erase ho)
        · exact h
      | lookup name => simp only [step]; split <;> exact h
      | query k => simp only [step]; split <;> exact h
  have hi := inv_run ty ops init inv_init
  intro hq
  simp only [answer, step] at hq
  split at hq
  · next hv =>
    simp at hq
    exact key ops init inv_init hops (by simp [init]) o ((hi.valid o).1 hv) hq
  · simp at hq

/-- Adding the *same* object a second time (possible through `add_geometry(shared_ptr)`) is outside C01's
quantifier; it really breaks the registry: the first name keeps resolving although the object's name is
another one. -/
theorem C01_double_add_counterexample :
    ∃ r1 r2, add demoTy init.reg 0 ['a'] = some r1 ∧ add demoTy r1 0 ['b'] = some r2 ∧
      find r2.map ['a'] = some 0 ∧ r2.nameOf 0 = ['b'] := by
  refine ⟨_, _, rfl, rfl, by decide, by decide⟩

/-! ### C02 -/

/-- Nobody reports the name `n` after history `ops`. -/
def NameFree (ty : Obj → Name) (ops : List Op) (n : Name) : Prop := ∀ o, answer ty ops (.query o) ≠ .named n

theorem nameFree_iff (ty : Obj → Name) (ops : List Op) (n : Name) :
    NameFree ty ops n ↔ contains (run ty init ops).1.reg.map n = false := by
  have hi := inv_run ty ops init inv_init
  constructor
  · intro h
    cases hf : find (run ty init ops).1.reg.map n with
    | none => simp [contains, hf]
    | some o =>
      obtain ⟨h1, h2⟩ := hi.back n o hf
      exact absurd (by simp [answer, step, (hi.valid o).2 h1, h2]) (h o)
  · intro h o hq
    simp only [answer, step] at hq
    split at hq
    · next hv =>
      simp at hq
      have := hi.fwd o ((hi.valid o).1 hv)
      rw [hq] at this
      simp [contains, this] at h
    · simp at hq

/-- C02 (creation): creation always terminates and returns a handle; a free requested name is used verbatim,
a taken one gets the smallest free numeric suffix; an empty request is replaced by `type.id` first. -/
theorem C02_create (ty : Obj → Name) (ops : List Op) (name : Name) :
    ∃ o n, answer ty ops (.create name) = .handle o ∧
      answer ty (ops ++ [.create name]) (.query o) = .named n ∧
      let req := if name = [] then ty o ++ ['.'] ++ decimal o else name
      (NameFree ty ops req → n = req) ∧
      (¬ NameFree ty ops req → ∃ k, 1 ≤ k ∧ n = req ++ ['_'] ++ decimal k ∧ NameFree ty ops n ∧
          ∀ i, 1 ≤ i → i < k → ¬ NameFree ty ops (req ++ ['_'] ++ decimal i)) := by
  have run_app : ∀ (a b : List Op) (w : World), (run ty w (a ++ b)).1 = (run ty (run ty w a).1 b).1 := by
    intro a
    induction a with
    | nil => intro b w; rfl
    | cons x a ih => intro b w; exact ih b _
  let w := (run ty init ops).1
  let req := if name = [] then ty w.next ++ ['.'] ++ decimal w.next else name
  obtain ⟨n, hn⟩ := makeUnique_terminates w.reg.map req
  have hst : step ty w (.create name) =
      ({ reg := { objects := w.reg.objects ++ [w.next], map := assign w.reg.map n w.next,
                  nameOf := upd w.reg.nameOf w.next n, owned := upd w.reg.owned w.next true },
         next := w.next + 1 }, .handle w.next) := by
    simp only [step, add]
    rw [show makeUnique w.reg.map (if name = [] then ty w.next ++ ['.'] ++ decimal w.next else name) = some n from hn]
  have hspec := makeUnique_spec hn
  refine ⟨w.next, n, ?_, ?_, ?_, ?_⟩
  · simp only [answer]; rw [hst]
  · simp only [answer, run_app]
    have : (run ty (run ty init ops).1 [Op.create name]).1 = (step ty w (.create name)).1 := rfl
    rw [this, hst]
    simp [step, valid, upd]
  · intro hf
    rcases hspec.2 with ⟨_, e⟩ | ⟨hc, _⟩
    · exact e
    · have hf' := (nameFree_iff ty ops _).1 hf
      exact absurd (hc.symm.trans hf') (by simp)
  · intro hnf
    rcases hspec.2 with ⟨hc, e⟩ | ⟨hc, k, hk, e, hall⟩
    · exact absurd ((nameFree_iff ty ops _).2 hc) hnf
    · refine ⟨k, hk, e, (nameFree_iff ty ops _).2 hspec.1, fun i h1 h2 hfree => ?_⟩
      have hf' := (nameFree_iff ty ops _).1 hfree
      exact absurd ((hall i h1 h2).symm.trans hf') (by simp)

/-- C02 (renaming): renaming a live object to a name nobody has (itself included) gives exactly that name; a
name in use gives the smallest free suffix. -/
theorem C02_rename (ty : Obj → Name) (ops : List Op) (o : Obj) (name : Name) (hl : Live (run ty init ops).2 o) :
    answer ty ops (.rename o name) = .done ∧
    ∃ n, (step ty (step ty (run ty init ops).1 (.rename o name)).1 (.query o)).2 = .named n ∧
      (NameFree ty ops name → n = name) ∧
      (¬ NameFree ty ops name → ∃ k, 1 ≤ k ∧ n = name ++ ['_'] ++ decimal k ∧ NameFree ty ops n ∧
          ∀ i, 1 ≤ i → i < k → ¬ NameFree ty ops (name ++ ['_'] ++ decimal i)) := by
  have hi := inv_run ty ops init inv_init
  have hm := (live_iff ty ops o).1 hl
  have hv := (hi.valid o).2 hm
  obtain ⟨n, hn⟩ := makeUnique_terminates (run ty init ops).1.reg.map name
  have hspec := makeUnique_spec hn
  have hne : n ≠ (run ty init ops).1.reg.nameOf o := by
    intro e
    have := hi.fwd o hm
    rw [← e] at this
    simp [contains, this] at hspec
  refine ⟨by simp [answer, step, hv, setName, hn, hne], n, ?_, ?_, ?_⟩
  · simp only [step, hv, if_true, setName, hn, hne, if_false]
    have : valid { reg := { objects := (run ty init ops).1.reg.objects,
                            map := assign (erase (run ty init ops).1.reg.map ((run ty init ops).1.reg.nameOf o)) n o,
                            nameOf := upd (run ty init ops).1.reg.nameOf o n,
                            owned := (run ty init ops).1.reg.owned },
                   next := (run ty init ops).1.next } o = true := hv
    simp [this, upd]
  · intro hf
    rcases hspec.2 with ⟨_, e⟩ | ⟨hc, _⟩
    · exact e
    · have hf' := (nameFree_iff ty ops _).1 hf
      exact absurd (hc.symm.trans hf') (by simp)
  · intro hnf
    rcases hspec.2 with ⟨hc, e⟩ | ⟨hc, k, hk, e, hall⟩
    · exact absurd ((nameFree_iff ty ops _).2 hc) hnf
    · refine ⟨k, hk, e, (nameFree_iff ty ops _).2 hspec.1, fun i h1 h2 hfree => ?_⟩
      have hf' := (nameFree_iff ty ops _).1 hfree
      exact absurd ((hall i h1 h2).symm.trans hf') (by simp)

example : answer demoTy (demo ++ [.create ['b']]) (.query 3) = .named ['b', '_', '1'] := by decide

/-! ### C03 -/

/-- C03 in full: renaming an object to the name it has keeps the name. -/
def C03_full : Prop := ∀ (ty : Obj → Name) (ops : List Op) (o : Obj) (n : Name),
  answer ty ops (.query o) = .named n →
  (step ty (step ty (run ty init ops).1 (.rename o n)).1 (.query o)).2 = .named n

/-- The code violates C03: the object's own name counts as taken, so it becomes `a_1`. -/
theorem C03_violated : ¬ C03_full := by
  intro h
  exact absurd (h demoTy [.create ['a']] 0 ['a'] (by decide)) (by decide)

/-- What really happens, for every history: the object is *always* renamed away from its own name. -/
theorem C03_always_changes (ty : Obj → Name) (ops : List Op) (o : Obj) (n : Name)
    (hq : answer ty ops (.query o) = .named n) :
    (step ty (step ty (run ty init ops).1 (.rename o n)).1 (.query o)).2 ≠ .named n := by
  have hi := inv_run ty ops init inv_init
  have hv : valid (run ty init ops).1 o = true := by
    simp only [answer, step] at hq
    split at hq
    · assumption
    · simp at hq
  have hm := (hi.valid o).1 hv
  have hl := (live_iff ty ops o).2 hm
  obtain ⟨_, n', h1, _, h3⟩ := C02_rename ty ops o n hl
  have hnf : ¬ NameFree ty ops n := fun hf => hf o hq
  obtain ⟨k, _, _, hfree, _⟩ := h3 hnf
  rw [h1]
  intro e
  simp at e
  subst e
  exact hfree o hq

/-! ### C04 -/

/-- C04: after deleting a live object, every handle operation on it throws in every later state. -/
theorem C04_dead_handle (ty : Obj → Name) (ops later : List Op) (o : Obj) (hl : Live (run ty init ops).2 o) :
    answer ty ops (.delete o) = .done ∧
    ∀ n, answer ty (ops ++ .delete o :: later) (.query o) = .throw ∧
         answer ty (ops ++ .delete o :: later) (.rename o n) = .throw ∧
         answer ty (ops ++ .delete o :: later) (.delete o) = .throw := by
  have hi := inv_run ty ops init inv_init
  have hm := (live_iff ty ops o).1 hl
  have hv := (hi.valid o).2 hm
  have hdone : answer ty ops (.delete o) = .done := by simp [answer, step, hv, remove, hm]
  refine ⟨hdone, fun n => ?_⟩
  have run_app2 : ∀ (a b : List Op) (w : World), (run ty w (a ++ b)).2 = (run ty w a).2 ++ (run ty (run ty w a).1 b).2 := by
    intro a
    induction a with
    | nil => intro b w; rfl
    | cons x a ih =>
      intro b w
      have := ih b (step ty w x).1
      exact congrArg (List.cons (x, (step ty w x).2)) this
  have hi2 := inv_run ty (ops ++ .delete o :: later) init inv_init
  have hdel : Deleted (run ty init (ops ++ .delete o :: later)).2 o := by
    unfold Deleted
    rw [run_app2]
    refine List.mem_append_right _ ?_
    have : (step ty (run ty init ops).1 (.delete o)).2 = .done := hdone
    have e : (run ty (run ty init ops).1 (.delete o :: later)).2 =
      (.delete o, (step ty (run ty init ops).1 (.delete o)).2)
        :: (run ty (step ty (run ty init ops).1 (.delete o)).1 later).2 := rfl
    rw [e, this]; simp
  have hnl : o ∉ (run ty init (ops ++ .delete o :: later)).1.reg.objects := by
    rw [← live_iff]; exact fun h => h.2 hdel
  have hnv : valid (run ty init (ops ++ .delete o :: later)).1 o = false := by
    rw [Bool.eq_false_iff]; intro h; exact hnl ((hi2.valid o).1 h)
  simp [answer, step, hnv]

/-- C04: deletion frees exactly that name and affects no other object: other lookups and names are as before. -/
theorem C04_frame (ty : Obj → Name) (ops : List Op) (o : Obj) (n : Name) (hl : Live (run ty init ops).2 o)
    (hn : answer ty ops (.query o) = .named n) :
    answer ty (ops ++ [.delete o]) (.lookup n) = .throw ∧
    NameFree ty (ops ++ [.delete o]) n ∧
    (∀ m, m ≠ n → answer ty (ops ++ [.delete o]) (.lookup m) = answer ty ops (.lookup m)) ∧
    (∀ p, p ≠ o → answer ty (ops ++ [.delete o]) (.query p) = answer ty ops (.query p)) := by
  have hi := inv_run ty ops init inv_init
  have hm := (live_iff ty ops o).1 hl
  have hv := (hi.valid o).2 hm
  have hname : (run ty init ops).1.reg.nameOf o = n := by
    simpa [answer, step, hv] using hn
  have run_app : ∀ (a b : List Op) (w : World), (run ty w (a ++ b)).1 = (run ty (run ty w a).1 b).1 := by
    intro a
    induction a with
    | nil => intro b w; rfl
    | cons x a ih => intro b w; exact ih b _
  have hst : (run ty init (ops ++ [.delete o])).1 =
      { reg := { objects := (run ty init ops).1.reg.objects.erase o, map := erase (run ty init ops).1.reg.map n,
                 nameOf := (run ty init ops).1.reg.nameOf, owned := upd (run ty init ops).1.reg.owned o false },
        next := (run ty init ops).1.next } := by
    rw [run_app]
    show (step ty (run ty init ops).1 (.delete o)).1 = _
    simp [step, hv, remove, hm, hname]
  refine ⟨?_, ?_, ?_, ?_⟩
  · simp only [answer]; rw [hst]; simp [step, find_erase]
  · rw [nameFree_iff, hst]; simp [contains, find_erase]
  · intro m hmn
    simp only [answer]; rw [hst]; simp only [step, find_erase, hmn, if_false]
    cases find (run ty init ops).1.reg.map m <;> rfl
  · intro p hp
    simp only [answer]; rw [hst]
    simp only [step, valid, upd, hp, if_false]
    by_cases hc : (decide (p < (run ty init ops).1.next) && (run ty init ops).1.reg.owned p) = true <;> simp only [hc] <;> rfl

example : Live (run demoTy init [.create ['a'], .create ['b']]).2 0 ∧
    answer demoTy [.create ['a'], .create ['b']] (.query 0) = .named ['a'] := by
  refine ⟨⟨⟨['a'], by decide⟩, show ¬ _ ∈ _ by decide⟩, by decide⟩

end Huira.Registry
