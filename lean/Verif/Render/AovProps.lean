import Verif.Render.AovModel
import Verif.Core.TransformProps
import Mathlib.Order.Bounds.Basic
/-!
# C134, C135, C136: depth, normals, albedo, ids, and hidden point sources
-/
namespace Huira.Aov

open V3 Xform

noncomputable section
open Classical

set_option linter.unusedSimpArgs false

/-! ## Specification -/

/-- The random outcomes of the following turns. -/
def later (ch : ℕ → Chance) : ℕ → Chance := fun i => ch (i + 1)

/-- The light of this turn comes from the fog: the ray is in a medium and scatters before it reaches anything. -/
def Fog (k : Volumes.Stack) (c : Chance) (h : Hit) : Prop := ∃ p t r, Volumes.top k = some p ∧ c.scatter = some (t, r) ∧ before t h

/-- The line of sight that starts as ray `r` inside the media `k` ends at surface `s`; `r'` is the ray that met it: `r` itself, or `r`
restarted behind the surfaces that were passed. -/
inductive Sight (sc : Scene) : Ray → Volumes.Stack → (ℕ → Chance) → Ray → Surface → Prop
  | here {r k ch s} : sc.intersect r = .surface s → ¬ Fog k (ch 0) (.surface s) → ¬ passes s (ch 0) → Sight sc r k ch r s
  | through {r k ch s r' s'} : sc.intersect r = .surface s → ¬ Fog k (ch 0) (.surface s) → passes s (ch 0) →
      Sight sc (beyond sc r s) (Volumes.toggle k (some s.prim)) (later ch) r' s' → Sight sc r k ch r' s'

/-- The line of sight of a camera ray (cameras are outside all media, line 196). -/
def Stops (sc : Scene) (r : Ray) (ch : ℕ → Chance) (r' : Ray) (s : Surface) : Prop := Sight sc r [] ch r' s

theorem Stops.here {sc : Scene} {r : Ray} {ch : ℕ → Chance} {s : Surface} (h : sc.intersect r = .surface s) (hp : ¬ passes s (ch 0)) :
    Stops sc r ch r s := Sight.here h (fun ⟨_, _, _, h, _⟩ => by simp [Volumes.top] at h) hp

/-- Ray tests measure along the ray: the surface lies at `origin + t * direction`. -/
def Straight (sc : Scene) : Prop := ∀ r s, sc.intersect r = .surface s → 0 ≤ s.t ∧ s.position = r.origin + s.t * r.dir

/-- The camera's rays have unit directions (`CameraModel::cast_ray` normalises, camera_model.ipp 511). -/
def UnitRays (l : List Sample) : Prop := ∀ sm ∈ l, dot sm.ray.dir sm.ray.dir = 1

/-- `d` is the least of a set of distances, infinite for the empty set. -/
def NearestOf (S : Set ℝ) (d : WithTop ℝ) : Prop := (d = ⊤ ∧ S = ∅) ∨ ∃ x : ℝ, d = (x : WithTop ℝ) ∧ IsLeast S x

/-- Distances from the camera to the surfaces the samples see. -/
def seenDistances (sc : Scene) (l : List Sample) : Set ℝ :=
  {x | ∃ sm ∈ l, ∃ r' s, Stops sc sm.ray sm.chance r' s ∧ x = len (s.position - sm.ray.origin)}

/-- Distances from where the last ray started to the surfaces the samples see. -/
def lastLegs (sc : Scene) (l : List Sample) : Set ℝ :=
  {x | ∃ sm ∈ l, ∃ r' s, Stops sc sm.ray sm.chance r' s ∧ x = len (s.position - r'.origin)}

/-- **C134 in full**: the depth of a pixel is the distance from the camera to the nearest surface its samples see, infinite if
they see none. -/
def C134_full : Prop := ∀ (sc : Scene) (maxBounces turns : ℕ) (c2w : Transform) (l : List Sample) (o : Out), Straight sc →
  UnitRays l → 0 < maxBounces → pixel sc maxBounces turns c2w l = some o → NearestOf (seenDistances sc l) o.depth

/-! ## Lemmas -/

theorem sight_unique {sc : Scene} {r : Ray} {k : Volumes.Stack} {ch : ℕ → Chance} {r1 r2 : Ray} {s1 s2 : Surface} (h1 : Sight sc r k ch r1 s1)
    (h2 : Sight sc r k ch r2 s2) : r1 = r2 ∧ s1 = s2 := by
  induction h1 with
  | here ha _ hb =>
    cases h2 with
    | here hc _ hd => rw [ha] at hc; cases hc; exact ⟨rfl, rfl⟩
    | through hc _ hd he => rw [ha] at hc; cases hc; exact absurd hd hb
  | through ha _ hb _ ih =>
    cases h2 with
    | here hc _ hd => rw [ha] at hc; cases hc; exact absurd hb hd
    | through hc _ hd he => rw [ha] at hc; cases hc; exact ih he

theorem stops_unique {sc : Scene} {r : Ray} {ch : ℕ → Chance} {r1 r2 : Ray} {s1 s2 : Surface} (h1 : Stops sc r ch r1 s1)
    (h2 : Stops sc r ch r2 s2) : r1 = r2 ∧ s1 = s2 := sight_unique h1 h2

/-- The channels recorded at the first surface. -/
def same (a b : Acc) : Prop := a.depth = b.depth ∧ a.normals = b.normals ∧ a.albedo = b.albedo

theorem same_note (first : Bool) (a : Acc) : same (note first a) a := by unfold note same; split_ifs <;> simp

/-- After the first bounce nothing is recorded any more. -/
theorem path_later (sc : Scene) (m : ℕ) (first : Bool) : ∀ (n : ℕ) (ch : ℕ → Chance) (st : St) (a : Acc), 0 < st.bounce →
    path sc m first n ch st = some a → same a st.acc := by
  intro n
  induction n with
  | zero => intro ch st a _ h; simp [path] at h
  | succ n ih =>
    intro ch st a hb h
    rw [path] at h
    split_ifs at h with hm
    · have key : ∀ x, turn sc first st (ch 0) = x → (∀ a', x = .inr a' → same a' st.acc) ∧
          (∀ st', x = .inl st' → 0 < st'.bounce ∧ same st'.acc st.acc) := by
        intro x hx
        have harr : ∀ hh x, arrive sc first st (ch 0) hh = x → (∀ a', x = .inr a' → same a' st.acc) ∧
          (∀ st', x = .inl st' → 0 < st'.bounce ∧ same st'.acc st.acc) := by
          intro hh x hx
          have hs : same (note first st.acc) st.acc := same_note first st.acc
          have hr : ∀ s, record st.bounce s (note first st.acc) = note first st.acc := by
            intro s; unfold record; rw [if_neg (by omega)]
          cases hh with
          | miss =>
            refine ⟨fun a' h' => ?_, fun st' h' => ?_⟩
            · rw [← hx] at h'; simp only [arrive, Sum.inr.injEq] at h'; rw [← h']; exact ⟨rfl, rfl, rfl⟩
            · rw [← hx] at h'; simp [arrive] at h'
          | light t =>
            refine ⟨fun a' h' => ?_, fun st' h' => ?_⟩
            · rw [← hx] at h'; simp only [arrive, Sum.inr.injEq] at h'; rw [← h']; exact ⟨rfl, rfl, rfl⟩
            · rw [← hx] at h'; simp [arrive] at h'
          | surface s =>
            simp only [arrive, hr] at hx
            split_ifs at hx
            · refine ⟨fun a' h' => ?_, fun st' h' => ?_⟩
              · rw [← hx] at h'; cases h'
              · rw [← hx] at h'; cases h'; exact ⟨hb, hs⟩
            · cases hc : (ch 0).bounce with
              | none =>
                rw [hc] at hx
                refine ⟨fun a' h' => ?_, fun st' h' => ?_⟩
                · rw [← hx] at h'; cases h'; exact hs
                · rw [← hx] at h'; cases h'
              | some q =>
                rw [hc] at hx
                refine ⟨fun a' h' => ?_, fun st' h' => ?_⟩
                · rw [← hx] at h'; cases h'
                · rw [← hx] at h'; cases h'; exact ⟨Nat.succ_pos _, hs⟩
        unfold turn at hx
        split at hx
        · dsimp only at hx
          split_ifs at hx
          · refine ⟨fun a' h' => ?_, fun st' h' => ?_⟩
            · rw [← hx] at h'; cases h'
            · rw [← hx] at h'; cases h'; exact ⟨Nat.succ_pos _, rfl, rfl, rfl⟩
          · exact harr _ _ hx
        · exact harr _ _ hx
      cases ht : turn sc first st (ch 0) with
      | inr a' =>
        rw [ht] at h; simp only [Option.some.injEq] at h; rw [← h]
        exact (key _ ht).1 a' rfl
      | inl st' =>
        rw [ht] at h
        obtain ⟨h1, h2⟩ := (key _ ht).2 st' rfl
        have := ih _ _ _ h1 h
        exact ⟨this.1.trans h2.1, this.2.1.trans h2.2.1, this.2.2.trans h2.2.2⟩
    · simp only [Option.some.injEq] at h; rw [← h]; exact ⟨rfl, rfl, rfl⟩

/-- What a path of a sample adds to the accumulators. -/
def addsFrom (sc : Scene) (r : Ray) (k : Volumes.Stack) (ch : ℕ → Chance) (a a' : Acc) : Prop :=
  (∃ r' s, Sight sc r k ch r' s ∧ a'.depth = min a.depth (s.t : WithTop ℝ) ∧ a'.normals = a.normals + s.normalS ∧
    a'.albedo = a.albedo + s.albedo) ∨
  ((∀ r' s, ¬ Sight sc r k ch r' s) ∧ same a' a)

theorem turn_clear (sc : Scene) (first : Bool) (st : St) (c : Chance) (h : ¬ Fog st.stack c (sc.intersect st.ray)) :
    turn sc first st c = arrive sc first st c (sc.intersect st.ray) := by
  unfold turn
  cases hk : Volumes.top st.stack with
  | none => simp
  | some p =>
    cases hc : c.scatter with
    | none => simp
    | some q => simp only []; rw [if_neg (fun hb => h ⟨p, q.1, q.2, hk, hc, hb⟩)]

theorem turn_fog (sc : Scene) (first : Bool) (st : St) (c : Chance) (h : Fog st.stack c (sc.intersect st.ray)) :
    ∃ r, turn sc first st c = .inl ⟨r, st.bounce + 1, st.stack, st.acc⟩ := by
  obtain ⟨p, t, r, hk, hc, hb⟩ := h
  exact ⟨r, by unfold turn; simp only [hk, hc]; rw [if_pos hb]⟩

theorem turn_empty (sc : Scene) (first : Bool) (st : St) (c : Chance) (h : st.stack = []) :
    turn sc first st c = arrive sc first st c (sc.intersect st.ray) :=
  turn_clear sc first st c (fun ⟨_, _, _, hk, _⟩ => by rw [h] at hk; simp [Volumes.top] at hk)

theorem sight_hit {sc : Scene} {r : Ray} {k : Volumes.Stack} {ch : ℕ → Chance} {r' : Ray} {s : Surface} (h : Sight sc r k ch r' s) :
    ∃ s0, sc.intersect r = .surface s0 ∧ ¬ Fog k (ch 0) (.surface s0) := by
  cases h with
  | here h1 h2 _ => exact ⟨_, h1, h2⟩
  | through h1 h2 _ _ => exact ⟨_, h1, h2⟩

/-- A whole path. -/
theorem path_adds (sc : Scene) (m : ℕ) (hm : 0 < m) (first : Bool) : ∀ (n : ℕ) (ch : ℕ → Chance) (r : Ray) (k : Volumes.Stack) (a a' : Acc),
    path sc m first n ch ⟨r, 0, k, a⟩ = some a' → addsFrom sc r k ch a a' := by
  intro n
  induction n with
  | zero => intro ch r k a a' h; simp [path] at h
  | succ n ih =>
    intro ch r k a a' h
    rw [path, if_pos hm] at h
    by_cases hf : Fog k (ch 0) (sc.intersect r)
    · obtain ⟨r2, ht⟩ := turn_fog sc first ⟨r, 0, k, a⟩ (ch 0) hf
      rw [ht] at h
      refine Or.inr ⟨fun r' s hs => ?_, path_later sc m first n _ _ _ (by simp) h⟩
      obtain ⟨s0, h0, h1⟩ := sight_hit hs
      rw [h0] at hf; exact h1 hf
    · rw [turn_clear sc first ⟨r, 0, k, a⟩ (ch 0) hf] at h
      cases hh : sc.intersect r with
      | miss =>
        simp only [hh, arrive, Option.some.injEq] at h
        refine Or.inr ⟨fun r' s hs => ?_, by rw [← h]; exact ⟨rfl, rfl, rfl⟩⟩
        obtain ⟨s0, h0, _⟩ := sight_hit hs
        rw [hh] at h0; cases h0
      | light t =>
        simp only [hh, arrive, Option.some.injEq] at h
        refine Or.inr ⟨fun r' s hs => ?_, by rw [← h]; exact ⟨rfl, rfl, rfl⟩⟩
        obtain ⟨s0, h0, _⟩ := sight_hit hs
        rw [hh] at h0; cases h0
      | surface s =>
        rw [hh] at hf
        obtain ⟨n1, n2, n3⟩ := same_note first a
        by_cases hp : passes s (ch 0)
        · simp only [hh, arrive, hp, if_true] at h
          rcases ih _ _ _ _ _ h with ⟨r', s', h1, h2, h3, h4⟩ | ⟨h1, h2, h3, h4⟩
          · exact Or.inl ⟨r', s', .through hh hf hp h1, by rw [h2, n1], by rw [h3, n2], by rw [h4, n3]⟩
          · refine Or.inr ⟨fun r' s' hst => ?_, h2.trans n1, h3.trans n2, h4.trans n3⟩
            cases hst with
            | here hx _ hy => rw [hh] at hx; cases hx; exact hy hp
            | through hx _ hy hz => rw [hh] at hx; cases hx; exact h1 _ _ hz
        · refine Or.inl ⟨r, s, .here hh hf hp, ?_⟩
          simp only [hh, arrive, hp, if_false, record, if_true] at h
          cases hb : (ch 0).bounce with
          | none =>
            rw [hb] at h; simp only [Option.some.injEq] at h; rw [← h]
            exact ⟨by simp only [n1], by simp only [n2], by simp only [n3]⟩
          | some q =>
            rw [hb] at h
            obtain ⟨k1, k2, k3⟩ := path_later sc m first n _ _ _ (by simp) h
            exact ⟨k1.trans (by simp only [n1]), k2.trans (by simp only [n2]), k3.trans (by simp only [n3])⟩

/-- No camera ray meets a partly transparent surface first. -/
def FirstOpaque (sc : Scene) (l : List Sample) : Prop := ∀ sm ∈ l, ∀ s, sc.intersect sm.ray = .surface s → 1 ≤ s.opacity

/-- The surface a sample sees, if any. -/
def sees (sc : Scene) (sm : Sample) : Option Surface :=
  if h : ∃ s, ∃ r', Stops sc sm.ray sm.chance r' s then some h.choose else none

theorem sees_some {sc : Scene} {sm : Sample} {s : Surface} : sees sc sm = some s ↔ ∃ r', Stops sc sm.ray sm.chance r' s := by
  unfold sees
  constructor
  · intro h
    split_ifs at h with hx
    simp only [Option.some.injEq] at h
    rw [← h]; exact hx.choose_spec
  · rintro ⟨r', h⟩
    have hx : ∃ s, ∃ r', Stops sc sm.ray sm.chance r' s := ⟨s, r', h⟩
    rw [dif_pos hx]
    obtain ⟨r2, h2⟩ := hx.choose_spec
    rw [(stops_unique h2 h).2]

theorem sees_none {sc : Scene} {sm : Sample} : sees sc sm = none ↔ ∀ r' s, ¬ Stops sc sm.ray sm.chance r' s := by
  constructor
  · intro h r' s hs
    rw [sees_some.mpr ⟨r', hs⟩] at h; cases h
  · intro h
    cases hc : sees sc sm with
    | none => rfl
    | some s => obtain ⟨r', hr⟩ := sees_some.mp hc; exact absurd hr (h r' s)

/-- Vector sum. -/
def vsum : List V3 → V3
  | [] => V3.zero
  | v :: l => v + vsum l

theorem vadd_zero (a : V3) : a + V3.zero = a := by ext <;> simp [V3.zero]
theorem vadd_assoc (a b c : V3) : a + b + c = a + (b + c) := by ext <;> simp [add_assoc]
theorem vzero_add (a : V3) : V3.zero + a = a := by ext <;> simp [V3.zero]

/-- The accumulators after all samples. -/
theorem samples_spec (sc : Scene) (m turns : ℕ) (hm : 0 < m) : ∀ (l : List Sample) (first : Bool) (a : Acc) (r : Acc × ℕ),
    samples sc m turns first l a = some r →
    r.2 = (l.filter fun sm => !sm.nan).length ∧
    r.1.depth = (l.filterMap (sees sc)).foldl (fun d s => min d (s.t : WithTop ℝ)) a.depth ∧
    r.1.normals = a.normals + vsum ((l.filterMap (sees sc)).map (·.normalS)) ∧
    r.1.albedo = a.albedo + ((l.filterMap (sees sc)).map (·.albedo)).sum := by
  intro l
  induction l with
  | nil =>
    intro first a r h
    simp only [samples, Option.some.injEq] at h
    rw [← h]
    simp [vsum, vadd_zero]
  | cons sm l ih =>
    intro first a r h
    rw [samples] at h
    cases hp : path sc m first turns sm.chance ⟨sm.ray, 0, [], a⟩ with
    | none => rw [hp] at h; cases h
    | some a' =>
      rw [hp] at h
      simp only [Option.map_eq_some_iff] at h
      obtain ⟨r', hr, h⟩ := h
      obtain ⟨i1, i2, i3, i4⟩ := ih false a' r' hr
      have hcount : r.2 = ((sm :: l).filter fun sm => !sm.nan).length := by
        rw [← h]; cases hn : sm.nan <;> simp [hn, i1]
      have hacc : r.1 = r'.1 := by rw [← h]
      rw [hacc]
      refine ⟨hcount, ?_⟩
      rcases path_adds sc m hm first turns _ _ _ a a' hp with ⟨q, s, h1, h2, h3, h4⟩ | ⟨h1, h2, h3, h4⟩
      · rw [List.filterMap_cons_some (sees_some.mpr ⟨q, h1⟩)]
        simp only [List.map_cons, vsum, List.sum_cons, List.foldl_cons]
        exact ⟨by rw [i2, h2], by rw [i3, h3, vadd_assoc], by rw [i4, h4]; ring⟩
      · rw [List.filterMap_cons_none (sees_none.mpr h1)]
        exact ⟨by rw [i2, h2], by rw [i3, h3], by rw [i4, h4]⟩

theorem foldl_min (l : List Surface) (d : WithTop ℝ) :
    (l.foldl (fun d s => min d (s.t : WithTop ℝ)) d ≤ d ∧ ∀ s ∈ l, l.foldl (fun d s => min d (s.t : WithTop ℝ)) d ≤ (s.t : WithTop ℝ)) ∧
    (l.foldl (fun d s => min d (s.t : WithTop ℝ)) d = d ∨ ∃ s ∈ l, l.foldl (fun d s => min d (s.t : WithTop ℝ)) d = (s.t : WithTop ℝ)) := by
  induction l generalizing d with
  | nil => simp
  | cons s l ih =>
    simp only [List.foldl_cons]
    obtain ⟨⟨h1, h2⟩, h3⟩ := ih (min d (s.t : WithTop ℝ))
    refine ⟨⟨h1.trans (min_le_left _ _), ?_⟩, ?_⟩
    · intro x hx
      rcases List.mem_cons.mp hx with hx | hx
      · rw [hx]; exact h1.trans (min_le_right _ _)
      · exact h2 x hx
    · rcases h3 with h3 | ⟨x, hx, h3⟩
      · rcases le_total d (s.t : WithTop ℝ) with hd | hd
        · left; rw [h3]; exact min_eq_left hd
        · right; exact ⟨s, List.mem_cons_self, by rw [h3]; exact min_eq_right hd⟩
      · right; exact ⟨x, List.mem_cons_of_mem _ hx, h3⟩

theorem nearest_foldl (l : List Surface) :
    NearestOf {x | ∃ s ∈ l, x = s.t} (l.foldl (fun d s => min d (s.t : WithTop ℝ)) ⊤) := by
  obtain ⟨⟨_, h2⟩, h3⟩ := foldl_min l ⊤
  rcases h3 with h3 | ⟨s, hs, h3⟩
  · left
    refine ⟨h3, ?_⟩
    ext x
    simp only [Set.mem_setOf_eq, Set.mem_empty_iff_false, iff_false, not_exists, not_and]
    intro s hs _
    have := h2 s hs
    rw [h3] at this
    simp at this
  · right
    refine ⟨s.t, h3, ⟨s, hs, rfl⟩, ?_⟩
    rintro x ⟨y, hy, rfl⟩
    have := h2 y hy
    rw [h3] at this
    exact_mod_cast this

theorem pixel_depth (sc : Scene) (m turns : ℕ) (c2w : Transform) (l : List Sample) (o : Out) (hm : 0 < m)
    (h : pixel sc m turns c2w l = some o) : NearestOf {x | ∃ s ∈ l.filterMap (sees sc), x = s.t} o.depth := by
  unfold pixel at h
  rw [Option.map_eq_some_iff] at h
  obtain ⟨r, hr, h⟩ := h
  obtain ⟨_, h2, _⟩ := samples_spec sc m turns hm l true Acc.start r hr
  have hd : o.depth = r.1.depth := by
    rw [← h]; simp only [write]; split_ifs with hx
    · rfl
    · exact (not_lt_top_iff.mp hx).symm
  rw [hd, h2]
  exact nearest_foldl _

theorem len_smul_unit {d : V3} (hd : dot d d = 1) {t : ℝ} (ht : 0 ≤ t) : len (t * d) = t := by
  unfold len
  have : dot (t * d) (t * d) = t ^ 2 := by
    have : dot (t * d) (t * d) = t ^ 2 * dot d d := by unfold dot; simp; ring
    rw [this, hd, mul_one]
  rw [this, Real.sqrt_sq ht]

theorem straight_dist {sc : Scene} (hs : Straight sc) {r : Ray} {s : Surface} (h : sc.intersect r = .surface s) (hd : dot r.dir r.dir = 1) :
    len (s.position - r.origin) = s.t := by
  obtain ⟨h0, h1⟩ := hs r s h
  have : s.position - r.origin = s.t * r.dir := by rw [h1]; ext <;> simp
  rw [this, len_smul_unit hd h0]

theorem sight_last {sc : Scene} {r : Ray} {k : Volumes.Stack} {ch : ℕ → Chance} {r' : Ray} {s : Surface} (h : Sight sc r k ch r' s) :
    sc.intersect r' = .surface s ∧ r'.dir = r.dir := by
  induction h with
  | here h _ _ => exact ⟨h, rfl⟩
  | through _ _ _ _ ih => exact ⟨ih.1, ih.2⟩

theorem stops_last {sc : Scene} {r : Ray} {ch : ℕ → Chance} {r' : Ray} {s : Surface} (h : Stops sc r ch r' s) :
    sc.intersect r' = .surface s ∧ r'.dir = r.dir := sight_last h

/-! ## C134 -/

/-- **C134, what the code does in every scene.** The depth is measured from where the last
ray started: from the camera, or from the last surface the sample passed. -/
theorem C134_last_leg (sc : Scene) (maxBounces turns : ℕ) (c2w : Transform) (l : List Sample) (o : Out) (hs : Straight sc)
    (hu : UnitRays l) (hm : 0 < maxBounces) (h : pixel sc maxBounces turns c2w l = some o) :
    NearestOf (lastLegs sc l) o.depth := by
  have := pixel_depth sc maxBounces turns c2w l o hm h
  convert this using 1
  ext x
  constructor
  · rintro ⟨sm, hsm, r', s, hst, rfl⟩
    refine ⟨s, List.mem_filterMap.mpr ⟨sm, hsm, sees_some.mpr ⟨r', hst⟩⟩, ?_⟩
    obtain ⟨h1, h2⟩ := stops_last hst
    exact straight_dist hs h1 (by rw [h2]; exact hu sm hsm)
  · rintro ⟨s, hmem, rfl⟩
    obtain ⟨sm, hsm, hse⟩ := List.mem_filterMap.mp hmem
    obtain ⟨r', hst⟩ := sees_some.mp hse
    obtain ⟨h1, h2⟩ := stops_last hst
    exact ⟨sm, hsm, r', s, hst, (straight_dist hs h1 (by rw [h2]; exact hu sm hsm)).symm⟩

/-- **C134, partial.** If the first surface every camera ray meets is opaque (any media allowed), the depth of the pixel is the
distance from the camera to the nearest surface its samples see.  Missing: partly transparent surfaces (`C134_violated`). -/
theorem C134_opaque_partial (sc : Scene) (maxBounces turns : ℕ) (c2w : Transform) (l : List Sample) (o : Out) (hs : Straight sc)
    (ho : FirstOpaque sc l) (hu : UnitRays l) (hm : 0 < maxBounces) (h : pixel sc maxBounces turns c2w l = some o) :
    NearestOf (seenDistances sc l) o.depth := by
  have := pixel_depth sc maxBounces turns c2w l o hm h
  convert this using 1
  have hfirst : ∀ sm ∈ l, ∀ r' s, Stops sc sm.ray sm.chance r' s → sc.intersect sm.ray = .surface s := by
    intro sm hsm r' s hst
    cases hst with
    | here h1 _ _ => exact h1
    | through h1 _ h2 _ => exact absurd h2.1 (not_lt.mpr (ho sm hsm _ h1))
  ext x
  constructor
  · rintro ⟨sm, hsm, r', s, hst, rfl⟩
    exact ⟨s, List.mem_filterMap.mpr ⟨sm, hsm, sees_some.mpr ⟨r', hst⟩⟩, straight_dist hs (hfirst sm hsm r' s hst) (hu sm hsm)⟩
  · rintro ⟨s, hmem, rfl⟩
    obtain ⟨sm, hsm, hse⟩ := List.mem_filterMap.mp hmem
    obtain ⟨r', hst⟩ := sees_some.mp hse
    exact ⟨sm, hsm, r', s, hst, (straight_dist hs (hfirst sm hsm r' s hst) (hu sm hsm)).symm⟩

/-- Rays restart exactly on the surface they pass (the code moves them by a few units in the last place, C48). -/
def Exact (sc : Scene) : Prop := ∀ p n, sc.offset p n = p

theorem stops_far {sc : Scene} (hs : Straight sc) (he : Exact sc) {r : Ray} {k : Volumes.Stack} {ch : ℕ → Chance} {r' : Ray} {s : Surface}
    (h : Sight sc r k ch r' s) (hd : dot r.dir r.dir = 1) :
    ∃ w : ℝ, 0 ≤ w ∧ len (s.position - r.origin) = w + s.t ∧ r'.origin = r.origin + w * r.dir := by
  induction h with
  | here h _ _ => exact ⟨0, le_rfl, by rw [straight_dist hs h hd]; ring, by ext <;> simp⟩
  | @through r k ch s1 r2 s2 h _ hp h' ih =>
    obtain ⟨w, hw, _, hl2⟩ := ih hd
    obtain ⟨hb, hd'⟩ := sight_last h'
    obtain ⟨h0, h1⟩ := hs _ _ h
    obtain ⟨h20, h21⟩ := hs _ _ hb
    have horg : r2.origin = r.origin + (s1.t + w) * r.dir := by
      have he' : ∀ p n, sc.offset p n = p := he
      rw [hl2]; simp only [beyond, he']
      rw [h1]; ext <;> simp <;> ring
    refine ⟨s1.t + w, by linarith, ?_, horg⟩
    have : s2.position - r.origin = (s1.t + w + s2.t) * r.dir := by
      rw [h21, horg, hd']; ext <;> simp [beyond] <;> ring
    rw [this, len_smul_unit hd (by linarith)]

/-- **C134, partial (the error has a sign).** A pixel's depth never lies behind the nearest surface its samples see; it is infinite
only if they see none. -/
theorem C134_not_behind_partial (sc : Scene) (maxBounces turns : ℕ) (c2w : Transform) (l : List Sample) (o : Out) (hs : Straight sc)
    (he : Exact sc) (hu : UnitRays l) (hm : 0 < maxBounces) (h : pixel sc maxBounces turns c2w l = some o) :
    (∀ x ∈ seenDistances sc l, o.depth ≤ (x : WithTop ℝ)) ∧ (o.depth = ⊤ ↔ seenDistances sc l = ∅) := by
  have hn := C134_last_leg sc maxBounces turns c2w l o hs hu hm h
  have hle : ∀ x ∈ seenDistances sc l, o.depth ≤ (x : WithTop ℝ) := by
    rintro x ⟨sm, hsm, r', s, hst, rfl⟩
    obtain ⟨w, hw, hl, _⟩ := stops_far hs he hst (hu sm hsm)
    obtain ⟨h1, h2⟩ := stops_last hst
    have hleg : len (s.position - r'.origin) = s.t := straight_dist hs h1 (by rw [h2]; exact hu sm hsm)
    rcases hn with ⟨_, hempty⟩ | ⟨y, hy, hleast⟩
    · have hmem : len (s.position - r'.origin) ∈ lastLegs sc l := ⟨sm, hsm, r', s, hst, rfl⟩
      rw [hempty] at hmem; exact absurd hmem (Set.notMem_empty _)
    · rw [hy]
      have : y ≤ len (s.position - r'.origin) := hleast.2 ⟨sm, hsm, r', s, hst, rfl⟩
      have : y ≤ len (s.position - sm.ray.origin) := by rw [hl]; rw [hleg] at this; linarith
      exact_mod_cast this
  refine ⟨hle, ?_, ?_⟩
  · intro ht
    ext x
    simp only [Set.mem_empty_iff_false, iff_false]
    intro hx
    have := hle x hx
    rw [ht] at this
    simp at this
  · intro hempty
    rcases hn with ⟨ht, _⟩ | ⟨y, _, ⟨sm, hsm, r', s, hst, _⟩, _⟩
    · exact ht
    · have : len (s.position - sm.ray.origin) ∈ seenDistances sc l := ⟨sm, hsm, r', s, hst, rfl⟩
      rw [hempty] at this; exact absurd this (Set.notMem_empty _)

/-! ### A window in front of a wall -/

/-- A surface across the viewing direction. -/
def pane (t z opacity : ℝ) : Surface := ⟨t, ⟨0, false⟩, ⟨0, 0, z⟩, ⟨0, 0, -1⟩, opacity, ⟨0, 0, -1⟩, 1 / 2⟩

/-- A fully transparent window at distance 1 and an opaque wall at distance 3, seen along the z axis. -/
def room : Scene where
  intersect := fun r =>
    if r.dir = ⟨0, 0, 1⟩ ∧ r.origin = ⟨0, 0, 0⟩ then .surface (pane 1 1 0)
    else if r.dir = ⟨0, 0, 1⟩ ∧ r.origin = ⟨0, 0, 1⟩ then .surface (pane 2 3 1)
    else .miss
  offset := fun p _ => p

/-- The camera's ray along the axis; the path ends at the first surface that does not let it pass. -/
def look : Sample := ⟨⟨⟨0, 0, 0⟩, ⟨0, 0, 1⟩⟩, fun _ => ⟨none, 1 / 2, none⟩, false⟩

theorem room_straight : Straight room := by
  intro r s h
  simp only [room] at h
  split_ifs at h with h1 h2
  · cases h; rw [h1.1, h1.2]; exact ⟨by simp [pane], by ext <;> simp [pane]⟩
  · cases h; rw [h2.1, h2.2]; exact ⟨by simp [pane], by ext <;> simp [pane]; norm_num⟩

theorem ne01 : (⟨0, 0, 1⟩ : V3) ≠ ⟨0, 0, 0⟩ := by intro h; have := congrArg V3.z h; norm_num at this

theorem room_beyond : beyond room look.ray (pane 1 1 0) = ⟨⟨0, 0, 1⟩, ⟨0, 0, 1⟩⟩ := by simp [beyond, room, look, pane]

theorem room_first : room.intersect look.ray = .surface (pane 1 1 0) := by simp [room, look]

theorem room_second : room.intersect ⟨⟨0, 0, 1⟩, ⟨0, 0, 1⟩⟩ = .surface (pane 2 3 1) := by simp [room, ne01]

theorem room_stops : Stops room look.ray look.chance ⟨⟨0, 0, 1⟩, ⟨0, 0, 1⟩⟩ (pane 2 3 1) := by
  refine Sight.through room_first (fun ⟨_, _, _, h, _⟩ => by simp [Volumes.top] at h) ?_ ?_
  · simp [passes, pane, look]
  · rw [room_beyond]
    have : Volumes.toggle [] (some (pane 1 1 0).prim) = [] := by simp [Volumes.toggle, pane]
    rw [this]
    exact Stops.here (ch := later look.chance) room_second (by simp [passes, pane])

theorem room_pixel (c2w : Transform) : ∃ o, pixel room 1 2 c2w [look] = some o := by
  unfold pixel
  have : samples room 1 2 true [look] Acc.start ≠ none := by
    rw [samples]
    have hp : path room 1 true 2 look.chance ⟨look.ray, 0, [], Acc.start⟩ ≠ none := by
      rw [path, if_pos (by norm_num), turn_empty room _ _ _ rfl]
      simp only [room_first, arrive]
      rw [if_pos (by simp [passes, pane, look])]
      simp only [room_beyond]
      rw [path, if_pos (by norm_num), turn_empty room _ _ _ (by simp [Volumes.toggle, pane])]
      simp only [room_second, arrive]
      rw [if_neg (by simp [passes, pane])]
      simp [look]
    cases hq : path room 1 true 2 look.chance ⟨look.ray, 0, [], Acc.start⟩ with
    | none => exact absurd hq hp
    | some a => simp [samples]
  cases hq : samples room 1 2 true [look] Acc.start with
  | none => exact absurd hq this
  | some r => exact ⟨_, rfl⟩

theorem look_unit : UnitRays [look] := by
  intro sm h; simp only [List.mem_singleton] at h; rw [h]; simp [look, dot]

theorem room_legs : lastLegs room [look] = {2} := by
  ext x
  constructor
  · rintro ⟨sm, h, r', s, hst, rfl⟩
    simp only [List.mem_singleton] at h
    subst h
    obtain ⟨rfl, rfl⟩ := stops_unique hst room_stops
    have : len ((pane 2 3 1).position - (⟨⟨0, 0, 1⟩, ⟨0, 0, 1⟩⟩ : Ray).origin) = 2 := by
      have := straight_dist room_straight room_second (by simp [dot])
      rw [this]; rfl
    simpa using this
  · rintro rfl
    refine ⟨look, by simp, _, _, room_stops, ?_⟩
    rw [straight_dist room_straight room_second (by simp [dot])]; rfl

theorem room_seen : seenDistances room [look] = {3} := by
  have h3 : len ((pane 2 3 1).position - look.ray.origin) = 3 := by
    have : (pane 2 3 1).position - look.ray.origin = (3 : ℝ) * (⟨0, 0, 1⟩ : V3) := by ext <;> simp [pane, look]
    rw [this, len_smul_unit (by simp [dot]) (by norm_num)]
  ext x
  constructor
  · rintro ⟨sm, h, r', s, hst, rfl⟩
    simp only [List.mem_singleton] at h
    subst h
    obtain ⟨rfl, rfl⟩ := stops_unique hst room_stops
    simpa using h3
  · rintro rfl
    exact ⟨look, by simp, _, _, room_stops, h3.symm⟩

theorem nearest_singleton {x : ℝ} {d : WithTop ℝ} : NearestOf {x} d ↔ d = (x : WithTop ℝ) := by
  constructor
  · rintro (⟨_, h⟩ | ⟨y, rfl, hy, _⟩)
    · exact absurd h (Set.singleton_ne_empty x)
    · rw [Set.mem_singleton_iff.mp hy]
  · rintro rfl; exact Or.inr ⟨x, rfl, isLeast_singleton⟩

/-- **C134 is violated.** Behind a fully transparent window one unit away, a wall at distance 3 gets the depth 2. -/
theorem C134_violated : ¬ C134_full ∧ ∃ o, pixel room 1 2 Transform.default [look] = some o ∧ o.depth = ((2 : ℝ) : WithTop ℝ) ∧
    seenDistances room [look] = {3} := by
  obtain ⟨o, ho⟩ := room_pixel Transform.default
  have h2 : o.depth = ((2 : ℝ) : WithTop ℝ) := by
    have := C134_last_leg room 1 2 _ _ o room_straight look_unit one_pos ho
    rw [room_legs, nearest_singleton] at this
    exact this
  refine ⟨fun h => ?_, o, ho, h2, room_seen⟩
  have := h room 1 2 _ _ o room_straight look_unit one_pos ho
  rw [room_seen, nearest_singleton, h2] at this
  have : (2 : ℝ) = 3 := by exact_mod_cast this
  norm_num at this

/-- The hypotheses of `C134_not_behind_partial` are met by the room. -/
example : ∃ o, pixel room 1 2 Transform.default [look] = some o ∧ o.depth ≤ ((3 : ℝ) : WithTop ℝ) := by
  obtain ⟨o, ho⟩ := room_pixel Transform.default
  exact ⟨o, ho, (C134_not_behind_partial room 1 2 _ _ o room_straight (fun _ _ => rfl) look_unit one_pos ho).1 3
    (by rw [room_seen]; rfl)⟩

/-- A sphere light in view, and nothing else. -/
def sunOnly : Scene := ⟨fun _ => .light 5, fun p _ => p⟩

/-- **C134 does not cover lights.** A pixel filled by the disc of a sphere light (the Sun) has infinite depth, like the background. -/
theorem C134_lights (l : List Sample) (maxBounces turns : ℕ) (hm : 0 < maxBounces) (c2w : Transform) (o : Out) :
    pixel sunOnly maxBounces turns c2w l = some o → o.depth = ⊤ := by
  intro h
  have hn := pixel_depth sunOnly maxBounces turns c2w l o hm h
  have hempty : {x | ∃ s ∈ l.filterMap (sees sunOnly), x = s.t} = ∅ := by
    ext x
    simp only [Set.mem_setOf_eq, Set.mem_empty_iff_false, iff_false, not_exists, not_and]
    intro s hs _
    obtain ⟨sm, _, hse⟩ := List.mem_filterMap.mp hs
    obtain ⟨r', hst⟩ := sees_some.mp hse
    have := (stops_last hst).1
    simp [sunOnly] at this
  rw [hempty] at hn
  rcases hn with ⟨h, _⟩ | ⟨_, _, h, _⟩
  · exact h
  · exact absurd h (Set.notMem_empty _)

/-- **C134 (no way back).** A sample that passes a surface goes on, in the same direction, from a point that is not on the near side of
the surface, whichever way the surface's normal points, when the offset moves along the normal it is given. -/
theorem C134_forward (sc : Scene) (ε : ℝ) (hε : 0 < ε) (ho : ∀ p n, sc.offset p n = p + ε * n) (r : Ray) (s : Surface) :
    (beyond sc r s).dir = r.dir ∧ 0 ≤ dot r.dir ((beyond sc r s).origin - s.position) ∧
      (dot r.dir s.normalG ≠ 0 → 0 < dot r.dir ((beyond sc r s).origin - s.position)) := by
  have h : dot r.dir ((beyond sc r s).origin - s.position) = ε * |dot r.dir s.normalG| := by
    unfold beyond
    rw [ho]
    split_ifs with h
    · rw [abs_of_neg h]; simp [dot]; ring
    · rw [abs_of_nonneg (not_lt.1 h)]; simp [dot]; ring
  refine ⟨rfl, by rw [h]; positivity, fun h0 => by rw [h]; have := abs_pos.2 h0; positivity⟩

end
end Huira.Aov
