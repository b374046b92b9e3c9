import Verif.Render.AovProps
import Verif.Render.PointsProps
/-!
# C135: normals, albedo and geometry ids of a pixel; C136: point sources behind bodies
-/
namespace Huira.Aov

open V3 Xform Rot

noncomputable section
open Classical

set_option linter.unusedSimpArgs false

/-! ## C135: normals and albedo -/

/-- Shading normals and albedos of the surfaces the samples of a pixel see. -/
def seenNormals (sc : Scene) (l : List Sample) : List V3 := (l.filterMap (sees sc)).map (·.normalS)
def seenAlbedos (sc : Scene) (l : List Sample) : List ℝ := (l.filterMap (sees sc)).map (·.albedo)

/-- Samples whose radiance is a number. -/
def taken (l : List Sample) : ℕ := (l.filter fun sm => !sm.nan).length

theorem normalize_pos {k : ℝ} (hk : 0 < k) (v : V3) : normalize? (k * v) = normalize? v := by
  have hdot : dot (k * v) (k * v) = k ^ 2 * dot v v := by unfold dot; simp; ring
  have hlen : len (k * v) = k * len v := by
    unfold len; rw [hdot, Real.sqrt_mul (by positivity), Real.sqrt_sq hk.le]
  unfold normalize?
  by_cases h : dot v v = 0
  · rw [if_pos h, if_pos (by rw [hdot, h, mul_zero])]
  · rw [if_neg h, if_neg (by rw [hdot]; exact mul_ne_zero (by positivity) h)]
    unfold V3.normalize
    rw [hlen]
    have hv : len v ≠ 0 := by
      unfold len; rw [Real.sqrt_ne_zero (dot_self_nonneg v)]; exact h
    congr 1
    ext <;> simp [smul] <;> field_simp

/-- **C135, camera normals and albedo of every pixel.** The camera normal is the direction of the sum of the shading normals of the
surfaces the samples see, NaN when the sum vanishes, in particular on the background; the albedo is the sum of their albedos divided
by the number of samples whose radiance is a number. -/
theorem C135_channels (sc : Scene) (maxBounces turns : ℕ) (c2w : Transform) (l : List Sample) (o : Out) (hm : 0 < maxBounces)
    (ht : 0 < taken l) (h : pixel sc maxBounces turns c2w l = some o) :
    o.cameraNormal = normalize? (vsum (seenNormals sc l)) ∧ o.albedo = some ((seenAlbedos sc l).sum / taken l) ∧
    o.worldNormal = o.cameraNormal.map c2w.applyDirection := by
  unfold pixel at h
  rw [Option.map_eq_some_iff] at h
  obtain ⟨r, hr, h⟩ := h
  obtain ⟨h1, _, h3, h4⟩ := samples_spec sc maxBounces turns hm l true Acc.start r hr
  have hne : r.2 ≠ 0 := by rw [h1]; exact ht.ne'
  have hr2 : r.2 = taken l := h1
  rw [← h]
  simp only [write, if_neg hne]
  refine ⟨?_, ?_, trivial⟩
  · rw [normalize_pos (by positivity), h3]
    simp only [Acc.start, vzero_add]; rfl
  · rw [h4, hr2]
    simp only [Acc.start, zero_add]
    rw [mul_one_div]; rfl

theorem vsum_replicate (n : V3) : ∀ (l : List V3), (∀ v ∈ l, v = n) → vsum l = (l.length : ℝ) * n := by
  intro l
  induction l with
  | nil => intro _; ext <;> simp [vsum, V3.zero]
  | cons a l ih =>
    intro h
    rw [vsum, ih (fun v hv => h v (List.mem_cons_of_mem _ hv)), h a List.mem_cons_self]
    ext <;> simp <;> ring

/-- **C135, partial (normals).** A pixel whose samples see surfaces of one orientation, and at least one, has that unit normal. -/
theorem C135_flat_partial (sc : Scene) (maxBounces turns : ℕ) (c2w : Transform) (l : List Sample) (o : Out) (hm : 0 < maxBounces)
    (ht : 0 < taken l) (h : pixel sc maxBounces turns c2w l = some o) (n : V3) (hn : dot n n = 1)
    (hl : ∀ sm ∈ l, ∀ r' s, Stops sc sm.ray sm.chance r' s → s.normalS = n) (he : ∃ sm ∈ l, ∃ r' s, Stops sc sm.ray sm.chance r' s) :
    o.cameraNormal = some n := by
  rw [(C135_channels sc maxBounces turns c2w l o hm ht h).1]
  have hall : ∀ v ∈ seenNormals sc l, v = n := by
    intro v hv
    unfold seenNormals at hv
    obtain ⟨s, hsm, rfl⟩ := List.mem_map.mp hv
    obtain ⟨sm, hsm, hse⟩ := List.mem_filterMap.mp hsm
    obtain ⟨r', hst⟩ := sees_some.mp hse
    exact hl sm hsm r' s hst
  have hlen : 0 < (seenNormals sc l).length := by
    obtain ⟨sm, hsm, r', s, hst⟩ := he
    apply List.length_pos_of_mem (a := s.normalS)
    unfold seenNormals
    exact List.mem_map.mpr ⟨s, List.mem_filterMap.mpr ⟨sm, hsm, sees_some.mpr ⟨r', hst⟩⟩, rfl⟩
  rw [vsum_replicate n _ hall, normalize_pos (by exact_mod_cast hlen)]
  unfold normalize?
  rw [if_neg (by rw [hn]; norm_num)]
  unfold V3.normalize len
  rw [hn]
  congr 1
  ext <;> simp [smul]

/-- **C135, background.** Where no sample sees a surface the normals are NaN (the channel was cleared to zero before). -/
theorem C135_background (sc : Scene) (maxBounces turns : ℕ) (c2w : Transform) (l : List Sample) (o : Out) (hm : 0 < maxBounces)
    (ht : 0 < taken l) (h : pixel sc maxBounces turns c2w l = some o)
    (hl : ∀ sm ∈ l, ∀ r' s, ¬ Stops sc sm.ray sm.chance r' s) :
    o.cameraNormal = none ∧ o.worldNormal = none ∧ o.albedo = some 0 := by
  have hnil : l.filterMap (sees sc) = [] := by
    rw [List.filterMap_eq_nil_iff]
    intro sm hsm; exact sees_none.mpr (hl sm hsm)
  obtain ⟨h1, h2, h3⟩ := C135_channels sc maxBounces turns c2w l o hm ht h
  have hn : o.cameraNormal = none := by
    rw [h1]; unfold seenNormals; rw [hnil]; simp [vsum, normalize?, V3.zero, dot]
  refine ⟨hn, by rw [h3, hn]; rfl, ?_⟩
  rw [h2]; unfold seenAlbedos; rw [hnil]; simp

/-- **C135, partial (albedo).** If no sample's radiance is NaN, the albedo of a pixel is the mean over its samples of the albedo of
the surface each sees (0 for none), and lies in [0, 1] if the materials' albedos do. -/
theorem C135_albedo_partial (sc : Scene) (maxBounces turns : ℕ) (c2w : Transform) (l : List Sample) (o : Out) (hm : 0 < maxBounces)
    (hne : l ≠ []) (hnan : ∀ sm ∈ l, sm.nan = false) (h : pixel sc maxBounces turns c2w l = some o) :
    o.albedo = some ((l.map fun sm => ((sees sc sm).map (·.albedo)).getD 0).sum / l.length) ∧
    ((∀ sm ∈ l, ∀ r' s, Stops sc sm.ray sm.chance r' s → 0 ≤ s.albedo ∧ s.albedo ≤ 1) → ∃ x, o.albedo = some x ∧ 0 ≤ x ∧ x ≤ 1) := by
  have htk : taken l = l.length := by
    unfold taken; rw [List.filter_eq_self.mpr]; intro sm hsm; simp [hnan sm hsm]
  have hpos : 0 < l.length := List.length_pos_iff.mpr hne
  obtain ⟨_, h2, _⟩ := C135_channels sc maxBounces turns c2w l o hm (by rw [htk]; exact hpos) h
  have hsum : ∀ l : List Sample, (seenAlbedos sc l).sum = (l.map fun sm => ((sees sc sm).map (·.albedo)).getD 0).sum := by
    intro l
    induction l with
    | nil => rfl
    | cons a l ih =>
      unfold seenAlbedos at *
      cases hc : sees sc a with
      | none => rw [List.filterMap_cons_none hc, ih]; simp [hc]
      | some s => rw [List.filterMap_cons_some hc]; simp [hc, ih]
  rw [htk, hsum] at h2
  refine ⟨h2, fun hb => ⟨_, h2, ?_, ?_⟩⟩
  · apply div_nonneg _ (by positivity)
    apply List.sum_nonneg
    intro x hx
    obtain ⟨sm, hsm, rfl⟩ := List.mem_map.mp hx
    cases hc : sees sc sm with
    | none => simp
    | some s => obtain ⟨r', hr⟩ := sees_some.mp hc; simpa using (hb sm hsm r' s hr).1
  · rw [div_le_one (by exact_mod_cast hpos)]
    have : ∀ l' : List Sample, (∀ sm ∈ l', sm ∈ l) → (l'.map fun sm => ((sees sc sm).map (·.albedo)).getD 0).sum ≤ l'.length := by
      intro l'
      induction l' with
      | nil => simp
      | cons a l' ih =>
        intro hsub
        have h1 := ih (fun x hx => hsub x (List.mem_cons_of_mem _ hx))
        have h2 : ((sees sc a).map (·.albedo)).getD 0 ≤ 1 := by
          cases hc : sees sc a with
          | none => simp
          | some s => obtain ⟨r', hr⟩ := sees_some.mp hc; simpa using (hb a (hsub a List.mem_cons_self) r' s hr).2
        simp only [List.map_cons, List.sum_cons, List.length_cons]; push_cast; linarith
    exact this l (fun _ h => h)

/-! ### Violations -/

/-- An opaque wall across the axis, one unit away. -/
def wall : Scene := ⟨fun r => if r.dir = ⟨0, 0, 1⟩ ∧ r.origin = ⟨0, 0, 0⟩ then .surface ⟨1, ⟨0, false⟩, ⟨0, 0, 1⟩, ⟨0, 0, -1⟩, 1, ⟨0, 0, -1⟩, 3 / 4⟩ else .miss,
  fun p _ => p⟩

theorem wall_hit (s : Surface) (r : Ray) (h : wall.intersect r = .surface s) : s.opacity = 1 ∧ s.albedo = 3 / 4 ∧ s.normalS = ⟨0, 0, -1⟩ := by
  simp only [wall] at h; split_ifs at h; cases h; exact ⟨rfl, rfl, rfl⟩

theorem wall_opaque (l : List Sample) : FirstOpaque wall l := fun sm _ s hs => (wall_hit s _ hs).1.ge

theorem wall_look : wall.intersect look.ray = .surface ⟨1, ⟨0, false⟩, ⟨0, 0, 1⟩, ⟨0, 0, -1⟩, 1, ⟨0, 0, -1⟩, 3 / 4⟩ := by simp [wall, look]

/-- The same look with a radiance that is not a number. -/
def lookNan : Sample := { look with nan := true }

theorem wall_path (first : Bool) (a : Acc) : ∃ a', path wall 1 first 1 look.chance ⟨look.ray, 0, [], a⟩ = some a' := by
  rw [path, if_pos (by norm_num), turn_empty wall _ _ _ rfl]
  simp only [wall_look, arrive]
  rw [if_neg (by simp [passes])]
  simp [look]

theorem wall_pixel (c2w : Transform) (l : List Sample) (hl : ∀ sm ∈ l, sm.ray = look.ray ∧ sm.chance = look.chance) :
    ∃ o, pixel wall 1 1 c2w l = some o := by
  have : ∀ (l : List Sample) (first : Bool) (a : Acc), (∀ sm ∈ l, sm.ray = look.ray ∧ sm.chance = look.chance) →
      ∃ r, samples wall 1 1 first l a = some r := by
    intro l
    induction l with
    | nil => intro first a _; exact ⟨_, rfl⟩
    | cons sm l ih =>
      intro first a h
      obtain ⟨a', ha⟩ := wall_path first a
      obtain ⟨r, hr⟩ := ih false a' (fun x hx => h x (List.mem_cons_of_mem _ hx))
      refine ⟨(r.1, if sm.nan then r.2 else r.2 + 1), ?_⟩
      rw [samples, (h sm List.mem_cons_self).1, (h sm List.mem_cons_self).2, ha]
      simp only [hr]
      rfl
  obtain ⟨r, hr⟩ := this l true Acc.start hl
  exact ⟨_, by unfold pixel; rw [hr]; rfl⟩

theorem wall_sees (sm : Sample) (h1 : sm.ray = look.ray) (h2 : sm.chance = look.chance) :
    sees wall sm = some ⟨1, ⟨0, false⟩, ⟨0, 0, 1⟩, ⟨0, 0, -1⟩, 1, ⟨0, 0, -1⟩, 3 / 4⟩ := by
  rw [sees_some, h1, h2]
  exact ⟨_, .here wall_look (by simp [passes])⟩

/-- The hypotheses of the partial theorems are met: the wall fills the pixel. -/
example : ∃ o, pixel wall 1 1 Transform.default [look, look] = some o ∧ o.cameraNormal = some ⟨0, 0, -1⟩ ∧
    ∃ x, o.albedo = some x ∧ 0 ≤ x ∧ x ≤ 1 := by
  obtain ⟨o, ho⟩ := wall_pixel Transform.default [look, look] (by simp)
  refine ⟨o, ho, ?_, ?_⟩
  · refine C135_flat_partial wall 1 1 _ _ o one_pos (by simp [taken, look]) ho ⟨0, 0, -1⟩ (by simp [dot]) ?_ ?_
    · intro sm _ r' s hst; exact (wall_hit s _ (stops_last hst).1).2.2
    · exact ⟨look, by simp, sees_some.mp (wall_sees look rfl rfl) |> fun ⟨r', h⟩ => ⟨r', _, h⟩⟩
  · refine (C135_albedo_partial wall 1 1 _ _ o one_pos (by simp) (by simp [look]) ho).2 ?_
    intro sm _ r' s hst
    rw [(wall_hit s _ (stops_last hst).1).2.1]; norm_num

/-- **C135 in full for the albedo**: with materials that reflect at most everything, the albedo channel holds numbers in [0, 1]. -/
def C135_albedo_full : Prop := ∀ (sc : Scene) (maxBounces turns : ℕ) (c2w : Transform) (l : List Sample) (o : Out), 0 < maxBounces →
  FirstOpaque sc l → pixel sc maxBounces turns c2w l = some o →
  (∀ sm ∈ l, ∀ r' s, Stops sc sm.ray sm.chance r' s → 0 ≤ s.albedo ∧ s.albedo ≤ 1) → ∃ x, o.albedo = some x ∧ 0 ≤ x ∧ x ≤ 1

/-- **C135 is violated (albedo).** A dropped NaN sample still adds its albedo: a wall of albedo 3/4 shows 3/2. -/
theorem C135_albedo_violated : ¬ C135_albedo_full ∧
    ∃ o, pixel wall 1 1 Transform.default [look, lookNan] = some o ∧ o.albedo = some (3 / 2) := by
  obtain ⟨o, ho⟩ := wall_pixel Transform.default [look, lookNan] (by simp [lookNan])
  have hal : o.albedo = some (3 / 2) := by
    rw [(C135_channels wall 1 1 _ _ o one_pos (by simp [taken, look, lookNan]) ho).2.1]
    simp only [seenAlbedos, List.filterMap_cons_some (wall_sees look rfl rfl), List.filterMap_cons_some (wall_sees lookNan rfl rfl)]
    simp [taken, look, lookNan]; norm_num
  refine ⟨fun h => ?_, o, ho, hal⟩
  obtain ⟨x, hx, _, h1⟩ := h wall 1 1 _ _ o one_pos (wall_opaque _) ho (by
    intro sm _ r' s hst
    rw [(wall_hit s _ (stops_last hst).1).2.1]; norm_num)
  rw [hal] at hx
  simp only [Option.some.injEq] at hx
  rw [← hx] at h1; norm_num at h1

/-! ### World normals -/

/-- The camera's pose: `R` takes directions in camera axes to world axes. -/
def pose (R : M3) : Transform := { Transform.default with rotation := R }

/-- **C135 in full for world normals**: the world normal is the camera normal turned into world axes by the camera's pose. -/
def C135_world_full : Prop := ∀ (R : M3), IsRotation R → ∀ (c2w : Transform), cameraToWorld (pose R) = some c2w →
  ∀ n, c2w.applyDirection n = (pose R).applyDirection n

theorem pose_dir (R : M3) (n : V3) : (pose R).applyDirection n = R.mulVec n := by
  unfold pose Transform.applyDirection Transform.default
  congr 1; ext <;> simp [had]

/-- **C135, what the world normals are.** The camera normal turned the wrong way: by the inverse of the camera's pose.  They are right for
every normal exactly if turning twice by the pose changes nothing. -/
theorem C135_world_iff (R : M3) (hR : IsRotation R) : ∃ c2w, cameraToWorld (pose R) = some c2w ∧
    (∀ n, R.mulVec (c2w.applyDirection n) = n) ∧
    ((∀ n, c2w.applyDirection n = (pose R).applyDirection n) ↔ ∀ n, R.mulVec (R.mulVec n) = n) := by
  obtain ⟨i, hi, hr, hs, _⟩ := inverse_some (a := pose R) hR
  have hd : ∀ n, i.applyDirection n = R.transpose.mulVec n := by
    intro n
    unfold Transform.applyDirection
    rw [hr, hs]
    congr 1; ext <;> simp [had, pose, Transform.default]
  have hinv : ∀ n, R.mulVec (i.applyDirection n) = n := by
    intro n; rw [hd]; exact hR.ortho.expand n
  refine ⟨i, hi, hinv, ?_, ?_⟩
  · intro h n
    have := hinv n
    rw [h n, pose_dir] at this
    exact this
  · intro h n
    rw [pose_dir]
    apply injective hR
    rw [hinv, h]

/-- A quarter turn about the z axis. -/
def quarter : M3 := ⟨⟨0, 1, 0⟩, ⟨-1, 0, 0⟩, ⟨0, 0, 1⟩⟩

theorem quarter_rot : IsRotation quarter := by
  have ho : Ortho quarter := by constructor <;> simp [quarter, dot, cross]
  exact ho.isRotation

/-- **C135 is violated (world normals).** With the camera a quarter turn about its axis, the normal along camera x is reported as
`-y`; it is `+y`. -/
theorem C135_world_violated : ¬ C135_world_full ∧ ∃ c2w, cameraToWorld (pose quarter) = some c2w ∧
    c2w.applyDirection ⟨1, 0, 0⟩ = ⟨0, -1, 0⟩ ∧ (pose quarter).applyDirection ⟨1, 0, 0⟩ = ⟨0, 1, 0⟩ := by
  obtain ⟨c2w, hc, hinv, _⟩ := C135_world_iff quarter quarter_rot
  have h1 : c2w.applyDirection ⟨1, 0, 0⟩ = ⟨0, -1, 0⟩ := by
    apply injective quarter_rot
    rw [hinv]; ext <;> simp [quarter]
  have h2 : (pose quarter).applyDirection ⟨1, 0, 0⟩ = ⟨0, 1, 0⟩ := by
    rw [pose_dir]; ext <;> simp [quarter]
  refine ⟨fun h => ?_, c2w, hc, h1, h2⟩
  have := h quarter quarter_rot c2w hc ⟨1, 0, 0⟩
  rw [h1, h2] at this
  have := congrArg V3.y this
  norm_num at this

/-! ### Geometry ids -/

theorem arrive_gid (sc : Scene) (first : Bool) (st : St) (c : Chance) (hh : Hit) :
    (∀ a, arrive sc first st c hh = .inr a → a.gid = st.acc.gid ∨ (first = true ∧ a.gid = some 0)) ∧
    (∀ st', arrive sc first st c hh = .inl st' → st'.acc.gid = st.acc.gid ∨ (first = true ∧ st'.acc.gid = some 0)) ∧
    (∀ s, hh = .surface s → first = true → (∀ a, arrive sc first st c hh = .inr a → a.gid = some 0) ∧
      (∀ st', arrive sc first st c hh = .inl st' → st'.acc.gid = some 0)) := by
  have hn : (note first st.acc).gid = st.acc.gid ∨ (first = true ∧ (note first st.acc).gid = some 0) := by
    unfold note; split_ifs with h
    · right; exact ⟨h, rfl⟩
    · left; rfl
  have hn1 : first = true → (note first st.acc).gid = some 0 := by intro h; simp [note, h]
  have hr : ∀ b s a, (record b s a).gid = a.gid := by intro b s a; unfold record; split_ifs <;> rfl
  cases hh with
  | miss => simp [arrive]
  | light t => simp [arrive]
  | surface s =>
    simp only [arrive]
    split_ifs
    · refine ⟨by simp, fun st' h => ?_, fun _ _ hf => ⟨by simp, fun st' h => ?_⟩⟩
      · cases h; exact hn
      · cases h; exact hn1 hf
    · cases hc : c.bounce with
      | none =>
        refine ⟨fun a h => ?_, by simp, fun _ _ hf => ⟨fun a h => ?_, by simp⟩⟩
        · cases h; simpa only [hr] using hn
        · cases h; simpa only [hr] using hn1 hf
      | some q =>
        refine ⟨by simp, fun st' h => ?_, fun _ _ hf => ⟨by simp, fun st' h => ?_⟩⟩
        · cases h; simpa only [hr] using hn
        · cases h; simpa only [hr] using hn1 hf

theorem turn_gid (sc : Scene) (first : Bool) (st : St) (c : Chance) :
    (∀ a, turn sc first st c = .inr a → a.gid = st.acc.gid ∨ (first = true ∧ a.gid = some 0)) ∧
    (∀ st', turn sc first st c = .inl st' → st'.acc.gid = st.acc.gid ∨ (first = true ∧ st'.acc.gid = some 0)) := by
  have h := arrive_gid sc first st c (sc.intersect st.ray)
  unfold turn
  split
  · dsimp only
    split_ifs
    · refine ⟨by simp, fun st' h => ?_⟩
      cases h; exact Or.inl rfl
    · exact ⟨h.1, h.2.1⟩
  · exact ⟨h.1, h.2.1⟩

theorem path_gid (sc : Scene) (m : ℕ) (first : Bool) : ∀ (n : ℕ) (ch : ℕ → Chance) (st : St) (a : Acc),
    path sc m first n ch st = some a → a.gid = st.acc.gid ∨ (first = true ∧ a.gid = some 0) := by
  intro n
  induction n with
  | zero => intro ch st a h; simp [path] at h
  | succ n ih =>
    intro ch st a h
    rw [path] at h
    split_ifs at h
    · obtain ⟨h1, h2⟩ := turn_gid sc first st (ch 0)
      cases ht : turn sc first st (ch 0) with
      | inr a' => rw [ht] at h; simp only [Option.some.injEq] at h; rw [← h]; exact h1 a' ht
      | inl st' =>
        rw [ht] at h
        rcases ih _ _ _ h with h3 | h3
        · rcases h2 st' ht with h4 | h4
          · left; rw [h3, h4]
          · right; exact ⟨h4.1, by rw [h3, h4.2]⟩
        · right; exact h3
    · simp only [Option.some.injEq] at h; rw [← h]; exact Or.inl rfl

theorem samples_gid (sc : Scene) (m turns : ℕ) : ∀ (l : List Sample) (a : Acc) (r : Acc × ℕ),
    samples sc m turns false l a = some r → r.1.gid = a.gid := by
  intro l
  induction l with
  | nil => intro a r h; simp only [samples, Option.some.injEq] at h; rw [← h]
  | cons sm l ih =>
    intro a r h
    rw [samples] at h
    cases hp : path sc m false turns sm.chance ⟨sm.ray, 0, [], a⟩ with
    | none => rw [hp] at h; cases h
    | some a' =>
      rw [hp] at h
      simp only [Option.map_eq_some_iff] at h
      obtain ⟨r', hr, h⟩ := h
      rw [← h]
      simp only []
      rw [ih a' r' hr]
      rcases path_gid sc m false turns _ _ _ hp with h | h
      · exact h
      · exact absurd h.1 (by simp)

/-- **C135, geometry ids.** The id channel holds 0 or the greatest integer, whatever the scene contains: it is 0 if the first sample's
camera ray meets a surface (seen or passed), and the greatest integer if that ray meets nothing or a light. -/
theorem C135_ids (sc : Scene) (maxBounces turns : ℕ) (c2w : Transform) (sm : Sample) (l : List Sample) (o : Out) (hm : 0 < maxBounces)
    (h : pixel sc maxBounces turns c2w (sm :: l) = some o) :
    o.gid = (match sc.intersect sm.ray with | .surface _ => some 0 | _ => none) := by
  unfold pixel at h
  rw [Option.map_eq_some_iff] at h
  obtain ⟨r, hr, h⟩ := h
  have hg : o.gid = r.1.gid := by rw [← h]; rfl
  rw [samples] at hr
  cases hp : path sc maxBounces true turns sm.chance ⟨sm.ray, 0, [], Acc.start⟩ with
  | none => rw [hp] at hr; cases hr
  | some a' =>
    rw [hp] at hr
    simp only [Option.map_eq_some_iff] at hr
    obtain ⟨r', hr', hrr⟩ := hr
    have hga : o.gid = a'.gid := by rw [hg, ← hrr]; exact samples_gid sc _ _ l a' r' hr'
    rw [hga]
    cases turns with
    | zero => simp [path] at hp
    | succ n =>
      rw [path, if_pos hm, turn_empty sc _ _ _ rfl] at hp
      simp only [] at hp
      cases hh : sc.intersect sm.ray with
      | miss => rw [hh] at hp; simp only [arrive, Option.some.injEq] at hp; rw [← hp]; rfl
      | light t => rw [hh] at hp; simp only [arrive, Option.some.injEq] at hp; rw [← hp]; rfl
      | surface s =>
        rw [hh] at hp
        obtain ⟨h1, h2⟩ := (arrive_gid sc true ⟨sm.ray, 0, [], Acc.start⟩ (sm.chance 0) (.surface s)).2.2 s rfl rfl
        cases ht : arrive sc true ⟨sm.ray, 0, [], Acc.start⟩ (sm.chance 0) (.surface s) with
        | inr a => rw [ht] at hp; simp only [Option.some.injEq] at hp; rw [← hp]; exact h1 a ht
        | inl st' =>
          rw [ht] at hp
          rcases path_gid sc _ _ _ _ _ _ hp with h3 | h3
          · rw [h3]; exact h2 st' ht
          · exact h3.2

/-- **C135 in full for the ids**: pixels that show different primitives have different ids. -/
def C135_ids_full : Prop := ∀ (sc : Scene) (maxBounces turns : ℕ) (c2w : Transform) (a b : Sample) (oa ob : Out) (ra rb : Ray) (sa sb : Surface),
  0 < maxBounces → pixel sc maxBounces turns c2w [a] = some oa → pixel sc maxBounces turns c2w [b] = some ob →
  Stops sc a.ray a.chance ra sa → Stops sc b.ray b.chance rb sb → sa.prim ≠ sb.prim → oa.gid ≠ ob.gid

/-- Two bodies, one along the z axis and one along the x axis. -/
def twoBodies : Scene := ⟨fun r => if r.dir = ⟨0, 0, 1⟩ then .surface ⟨1, ⟨0, false⟩, ⟨0, 0, 1⟩, ⟨0, 0, -1⟩, 1, ⟨0, 0, -1⟩, 1⟩
  else .surface ⟨1, ⟨1, false⟩, ⟨1, 0, 0⟩, ⟨-1, 0, 0⟩, 1, ⟨-1, 0, 0⟩, 1⟩, fun p _ => p⟩

/-- The look along the x axis. -/
def lookX : Sample := ⟨⟨⟨0, 0, 0⟩, ⟨1, 0, 0⟩⟩, fun _ => ⟨none, 1 / 2, none⟩, false⟩

theorem nezx : (⟨1, 0, 0⟩ : V3) ≠ ⟨0, 0, 1⟩ := by intro h; have := congrArg V3.x h; norm_num at this

theorem opaque_pixel (sc : Scene) (c2w : Transform) (sm : Sample) (s : Surface) (h : sc.intersect sm.ray = .surface s) (ho : s.opacity = 1)
    (hb : (sm.chance 0).bounce = none) : ∃ o, pixel sc 1 1 c2w [sm] = some o := by
  have hp : ∃ a', path sc 1 true 1 sm.chance ⟨sm.ray, 0, [], Acc.start⟩ = some a' := by
    rw [path, if_pos (by norm_num), turn_empty sc _ _ _ rfl]
    simp only [h, arrive]
    rw [if_neg (by simp [passes, ho])]
    simp [hb]
  obtain ⟨a', ha⟩ := hp
  exact ⟨write c2w (a', if sm.nan then 0 else 1), by simp [pixel, samples, ha]⟩

/-- **C135 is violated (ids).** Two different bodies have the same id. -/
theorem C135_ids_violated : ¬ C135_ids_full := by
  intro h
  have h1 : twoBodies.intersect look.ray = .surface ⟨1, ⟨0, false⟩, ⟨0, 0, 1⟩, ⟨0, 0, -1⟩, 1, ⟨0, 0, -1⟩, 1⟩ := by simp [twoBodies, look]
  have h2 : twoBodies.intersect lookX.ray = .surface ⟨1, ⟨1, false⟩, ⟨1, 0, 0⟩, ⟨-1, 0, 0⟩, 1, ⟨-1, 0, 0⟩, 1⟩ := by
    simp [twoBodies, lookX, nezx]
  obtain ⟨oa, ha⟩ := opaque_pixel twoBodies Transform.default look _ h1 rfl rfl
  obtain ⟨ob, hb⟩ := opaque_pixel twoBodies Transform.default lookX _ h2 rfl rfl
  refine h twoBodies 1 1 _ look lookX oa ob _ _ _ _ one_pos ha hb (.here h1 (by simp [passes])) (.here h2 (by simp [passes])) (by simp) ?_
  rw [C135_ids twoBodies 1 1 _ _ _ oa one_pos ha, C135_ids twoBodies 1 1 _ _ _ ob one_pos hb, h1, h2]

/-! ## C136: point sources behind bodies -/

/-- A rendered frame: resolution, samples of every pixel, and the channels written. -/
structure Picture where
  W : ℕ
  H : ℕ
  samplesAt : ℕ → ℕ → List Sample
  outAt : ℕ → ℕ → Out

/-- The picture was rendered. -/
def Rendered (sc : Scene) (maxBounces turns : ℕ) (c2w : Transform) (P : Picture) : Prop :=
  ∀ X Y, X < P.W → Y < P.H → pixel sc maxBounces turns c2w (P.samplesAt X Y) = some (P.outAt X Y)

/-- The depth image as stored: row by row (`Image::to_linear`, image.hpp). -/
def depthData (P : Picture) : List (WithTop ℝ) :=
  (List.range (P.H * P.W)).map fun i => (P.outAt (i % P.W) (i / P.W)).depth

/-- What the renderer decides for a source projected to (x, y). -/
def shown (P : Picture) (hasDepth : Bool) (x y : ℝ) : Option Bool := drawn P.W P.H hasDepth (depthData P) x y

/-- A sample of the pixel that contains (x, y) sees a surface nearer than `D`. -/
def Covered (sc : Scene) (P : Picture) (x y : ℝ) (D : WithTop ℝ) : Prop :=
  ∃ sm ∈ P.samplesAt ⌊x⌋.toNat ⌊y⌋.toNat, ∃ r' s, Stops sc sm.ray sm.chance r' s ∧ ((len (s.position - sm.ray.origin) : ℝ) : WithTop ℝ) < D

/-- **C136 in full**: a point source at distance `D` (infinite for a star) whose image falls on the picture is drawn exactly if no body
in the pixel it falls on is nearer. -/
def C136_full : Prop := ∀ (sc : Scene) (maxBounces turns : ℕ) (c2w : Transform) (P : Picture) (hasDepth : Bool) (x y : ℝ) (D : WithTop ℝ),
  Straight sc → 0 < maxBounces → (∀ X Y, FirstOpaque sc (P.samplesAt X Y)) → (∀ X Y, UnitRays (P.samplesAt X Y)) →
  Rendered sc maxBounces turns c2w P → 0 ≤ x → x ≤ P.W → 0 ≤ y → y ≤ P.H →
  shown P hasDepth x y = some (decide (¬ Covered sc P x y D))

theorem read_in (P : Picture) {x y : ℝ} (hx : 0 ≤ x) (hxW : x < P.W) (hy : 0 ≤ y) (hyH : y < P.H) :
    ⌊x⌋.toNat < P.W ∧ ⌊y⌋.toNat < P.H ∧ readAt P.W (depthData P) x y = some (P.outAt ⌊x⌋.toNat ⌊y⌋.toNat).depth := by
  have hX : ⌊x⌋.toNat < P.W := by
    have h1 : ⌊x⌋ < (P.W : ℤ) := Int.floor_lt.mpr (by exact_mod_cast hxW)
    have h2 : 0 ≤ ⌊x⌋ := Int.floor_nonneg.mpr hx
    omega
  have hY : ⌊y⌋.toNat < P.H := by
    have h1 : ⌊y⌋ < (P.H : ℤ) := Int.floor_lt.mpr (by exact_mod_cast hyH)
    have h2 : 0 ≤ ⌊y⌋ := Int.floor_nonneg.mpr hy
    omega
  refine ⟨hX, hY, ?_⟩
  unfold readAt depthData
  generalize ⌊x⌋.toNat = X at *
  generalize ⌊y⌋.toNat = Y at *
  have hlt : Y * P.W + X < P.H * P.W := by
    calc Y * P.W + X < Y * P.W + P.W := by omega
      _ = (Y + 1) * P.W := by ring
      _ ≤ P.H * P.W := Nat.mul_le_mul_right _ hY
  have hm : (Y * P.W + X) % P.W = X := by
    rw [Nat.add_comm, Nat.add_mul_mod_self_right, Nat.mod_eq_of_lt hX]
  have hd : (Y * P.W + X) / P.W = Y := by
    rw [Nat.add_comm, Nat.add_mul_div_right _ _ (by omega), Nat.div_eq_of_lt hX, Nat.zero_add]
  rw [List.getElem?_map, List.getElem?_range hlt]
  simp only [Option.map_some, hm, hd]

theorem depth_top_iff (sc : Scene) (m turns : ℕ) (c2w : Transform) (l : List Sample) (o : Out) (hm : 0 < m)
    (h : pixel sc m turns c2w l = some o) : o.depth = ⊤ ↔ ∀ sm ∈ l, ∀ r' s, ¬ Stops sc sm.ray sm.chance r' s := by
  have hn := pixel_depth sc m turns c2w l o hm h
  constructor
  · intro ht sm hsm r' s hst
    have hmem : s.t ∈ {x | ∃ s ∈ l.filterMap (sees sc), x = s.t} :=
      ⟨s, List.mem_filterMap.mpr ⟨sm, hsm, sees_some.mpr ⟨r', hst⟩⟩, rfl⟩
    rcases hn with ⟨_, he⟩ | ⟨x, hx, _⟩
    · rw [he] at hmem; exact absurd hmem (Set.notMem_empty _)
    · rw [ht] at hx; simp at hx
  · intro hno
    rcases hn with ⟨ht, _⟩ | ⟨x, _, ⟨s, hs, _⟩, _⟩
    · exact ht
    · obtain ⟨sm, hsm, hse⟩ := List.mem_filterMap.mp hs
      obtain ⟨r', hst⟩ := sees_some.mp hse
      exact absurd hst (hno sm hsm r' s)

/-- **C136, partial.** With the depth channel enabled, a source whose image falls inside the picture, right and bottom edge excluded, and
which is behind everything the samples of its pixel see (a star always is) is drawn exactly if no sample of that pixel sees a surface;
transparent surfaces are looked through, and a sample scattered in a medium sees no surface.  Missing: no depth channel, sources in front of bodies, the far edges
(`C136_violated`), lights (`C136_lights`). -/
theorem C136_partial (sc : Scene) (maxBounces turns : ℕ) (c2w : Transform) (P : Picture) (x y : ℝ) (D : WithTop ℝ) (hm : 0 < maxBounces)
    (hr : Rendered sc maxBounces turns c2w P)
    (hx : 0 ≤ x) (hxW : x < P.W) (hy : 0 ≤ y) (hyH : y < P.H)
    (hD : ∀ sm ∈ P.samplesAt ⌊x⌋.toNat ⌊y⌋.toNat, ∀ r' s, Stops sc sm.ray sm.chance r' s →
      ((len (s.position - sm.ray.origin) : ℝ) : WithTop ℝ) < D) :
    shown P true x y = some (decide (¬ Covered sc P x y D)) := by
  obtain ⟨hX, hY, hread⟩ := read_in P hx hxW hy hyH
  unfold shown drawn
  rw [if_neg (by push Not; exact ⟨hx, hxW.le, hy, hyH.le⟩), if_pos rfl, hread]
  simp only [Option.map_some, Option.some.injEq, decide_eq_decide]
  rw [depth_top_iff sc maxBounces turns c2w _ _ hm (hr _ _ hX hY)]
  unfold Covered
  constructor
  · rintro h ⟨sm, hsm, r', s, hst, _⟩; exact h sm hsm r' s hst
  · intro h sm hsm r' s hst; exact h ⟨sm, hsm, r', s, hst, hD sm hsm r' s hst⟩

/-- A point source: its image, its power, the radius of its stamp. -/
structure Source where
  x : ℝ
  y : ℝ
  power : ℝ
  r : Int

/-- The source as the tiles see it. -/
def Source.item (P : Picture) (q : Source) : Points.Item := ⟨q.x, q.y, q.power, q.r, decide (shown P true q.x q.y = some true)⟩

/-- **C136, partial (the picture of the stars).** With a kernel and the depth channel, the picture of stars is the sum of the stamps of
exactly those whose pixel shows no surface; the others add nothing anywhere, not even where their stamp reaches the open sky. -/
theorem C136_stars_partial (sc : Scene) (maxBounces turns : ℕ) (c2w : Transform) (P : Picture) (f : Points.Frame) (qs : List Source)
    (hm : 0 < maxBounces) (hr : Rendered sc maxBounces turns c2w P)
    (hW : f.W = P.W) (hH : f.H = P.H) (hW0 : 0 < f.W) (hH0 : 0 < f.H) (hS : 0 < f.S)
    (hq : ∀ q ∈ qs, 0 ≤ q.x ∧ q.x < P.W ∧ 0 ≤ q.y ∧ q.y < P.H ∧ q.r ≤ f.S) (X Y : Int) (hX : 0 ≤ X ∧ X < f.W) (hY : 0 ≤ Y ∧ Y < f.H) :
    Points.image f (qs.map (Source.item P)) X Y =
      ((qs.filter fun q => decide (¬ Covered sc P q.x q.y ⊤)).map fun q => Points.stamp f ⟨q.x, q.y, q.power, q.r, true⟩ X Y).sum := by
  rw [Points.C50_stamp_partial f _ hW0 hH0 hS ?_ X Y hX hY]
  · rw [List.filter_eq_self.mpr ?_]
    · rw [List.map_map]
      have key : ∀ q ∈ qs, decide (shown P true q.x q.y = some true) = decide (¬ Covered sc P q.x q.y ⊤) := by
        intro q hqm
        obtain ⟨h1, h2, h3, h4, _⟩ := hq q hqm
        rw [C136_partial sc maxBounces turns c2w P q.x q.y ⊤ hm hr h1 h2 h3 h4 (fun _ _ _ _ _ => WithTop.coe_lt_top _)]
        simp
      clear hq
      induction qs with
      | nil => rfl
      | cons q qs ih =>
        have hk := key q List.mem_cons_self
        have ih' := ih (fun q' h => key q' (List.mem_cons_of_mem _ h))
        simp only [List.map_cons, List.sum_cons, Function.comp_apply]
        rw [ih']
        by_cases hc : Covered sc P q.x q.y ⊤
        · rw [List.filter_cons_of_neg (by simpa using hc)]
          have : Points.stamp f (Source.item P q) X Y = 0 := by
            unfold Points.stamp Source.item
            rw [if_neg]
            rintro ⟨h, _⟩
            simp only [hk] at h
            simp [hc] at h
          rw [this, zero_add]
        · rw [List.filter_cons_of_pos (by simpa using hc)]
          simp only [List.map_cons, List.sum_cons]
          have : Source.item P q = ⟨q.x, q.y, q.power, q.r, true⟩ := by
            unfold Source.item
            rw [hk]; simp [hc]
          rw [this]
    · intro i hi
      obtain ⟨q, hqm, rfl⟩ := List.mem_map.mp hi
      obtain ⟨h1, h2, h3, h4, _⟩ := hq q hqm
      have : Points.onImage f (Source.item P q) := by
        unfold Points.onImage
        rw [hW, hH]
        push Not
        exact ⟨h1, by exact_mod_cast h2.le, h3, by exact_mod_cast h4.le⟩
      exact decide_eq_true this
  · intro i hi
    obtain ⟨q, hqm, rfl⟩ := List.mem_map.mp hi
    exact (hq q hqm).2.2.2.2

/-- **C136, lights.** The disc of a sphere light hides nothing: sources behind the Sun are drawn on top of it. -/
theorem C136_lights (maxBounces turns : ℕ) (c2w : Transform) (P : Picture) (x y : ℝ) (hm : 0 < maxBounces)
    (hr : Rendered sunOnly maxBounces turns c2w P) (hx : 0 ≤ x) (hxW : x < P.W) (hy : 0 ≤ y) (hyH : y < P.H) :
    shown P true x y = some true := by
  have hno : ∀ r ch r' s, ¬ Stops sunOnly r ch r' s := by
    intro r ch r' s h
    have := (stops_last h).1
    simp [sunOnly] at this
  rw [C136_partial sunOnly maxBounces turns c2w P x y ⊤ hm hr hx hxW hy hyH
    (fun _ _ _ _ _ => WithTop.coe_lt_top _)]
  simp only [Option.some.injEq, decide_eq_true_eq]
  rintro ⟨sm, _, r', s, h, _⟩
  exact hno _ _ _ _ h

/-- **C136, the far edges.** A source exactly on the right edge is judged by the first pixel of the next row; on the bottom edge the depth is
read outside the image. -/
theorem C136_edges (P : Picture) (hW : 0 < P.W) :
    (∀ y : ℝ, 0 ≤ y → y < (P.H : ℝ) - 1 → shown P true P.W y = some (decide ((P.outAt 0 (⌊y⌋.toNat + 1)).depth = ⊤))) ∧
    (∀ x : ℝ, 0 ≤ x → x ≤ P.W → shown P true x P.H = none) := by
  constructor
  · intro y hy hyH
    have h1 : ⌊y⌋ < (P.H : ℤ) - 1 := Int.floor_lt.mpr (by push_cast; exact hyH)
    have h2 : 0 ≤ ⌊y⌋ := Int.floor_nonneg.mpr hy
    have hY : ⌊y⌋.toNat + 1 < P.H := by omega
    unfold shown drawn
    rw [if_neg (by push Not; exact ⟨by positivity, le_refl _, hy, by linarith⟩), if_pos rfl]
    unfold readAt depthData
    generalize ⌊y⌋.toNat = Y at *
    have hfl : ⌊(P.W : ℝ)⌋.toNat = P.W := by simp
    rw [hfl]
    have hidx : Y * P.W + P.W = (Y + 1) * P.W := by ring
    have hlt : (Y + 1) * P.W < P.H * P.W := Nat.mul_lt_mul_of_pos_right hY hW
    rw [hidx, List.getElem?_map, List.getElem?_range hlt]
    simp [Nat.mul_div_cancel _ hW]
  · intro x hx hxW
    unfold shown drawn
    rw [if_neg (by push Not; exact ⟨hx, hxW, by positivity, le_refl _⟩), if_pos rfl]
    unfold readAt depthData
    have hfl : ⌊(P.H : ℝ)⌋.toNat = P.H := by simp
    rw [hfl, List.getElem?_eq_none (by simp)]
    rfl

/-- One pixel filled by the wall. -/
def wallPicture : Picture where
  W := 1
  H := 1
  samplesAt := fun _ _ => [look]
  outAt := fun _ _ => (wall_pixel Transform.default [look] (by simp)).choose

theorem wallPicture_rendered : Rendered wall 1 1 Transform.default wallPicture := fun _ _ _ _ =>
  (wall_pixel Transform.default [look] (by simp)).choose_spec

theorem wall_straight : Straight wall := by
  intro r s h
  simp only [wall] at h
  split_ifs at h with h1
  cases h; rw [h1.1, h1.2]; exact ⟨by norm_num, by ext <;> simp⟩

theorem wall_covered (x y : ℝ) (D : WithTop ℝ) : Covered wall wallPicture x y D ↔ ((1 : ℝ) : WithTop ℝ) < D := by
  have hlen : len ((⟨0, 0, 1⟩ : V3) - look.ray.origin) = 1 := straight_dist wall_straight wall_look (by simp [look, dot])
  constructor
  · rintro ⟨sm, hsm, r', s, hst, hlt⟩
    have : sm = look := by simpa [wallPicture] using hsm
    subst this
    obtain ⟨_, rfl⟩ := stops_unique hst (.here wall_look (by simp [passes]))
    simp only [hlen] at hlt
    exact hlt
  · intro h
    exact ⟨look, by simp [wallPicture], _, _, .here wall_look (by simp [passes]), by simp only [hlen]; exact h⟩

/-- **C136 is violated.** Without the depth channel a star shines through a body (first part); with it, a source half way to the body is
hidden by it (second part); and on the lower edge there is no answer. -/
theorem C136_violated : ¬ C136_full ∧
    (shown wallPicture false (1 / 2) (1 / 2) = some true ∧ Covered wall wallPicture (1 / 2) (1 / 2) ⊤) ∧
    (shown wallPicture true (1 / 2) (1 / 2) = some false ∧ ¬ Covered wall wallPicture (1 / 2) (1 / 2) ((1 / 2 : ℝ) : WithTop ℝ)) ∧
    shown wallPicture true (1 / 2) 1 = none := by
  have hW : (wallPicture.W : ℝ) = 1 := by simp [wallPicture]
  have hH : (wallPicture.H : ℝ) = 1 := by simp [wallPicture]
  have hcov : Covered wall wallPicture (1 / 2) (1 / 2) ⊤ := (wall_covered _ _ _).mpr (WithTop.coe_lt_top _)
  have hncov : ¬ Covered wall wallPicture (1 / 2) (1 / 2) ((1 / 2 : ℝ) : WithTop ℝ) := by
    rw [wall_covered]; intro h; have : (1 : ℝ) < 1 / 2 := by exact_mod_cast h
    norm_num at this
  have h1 : shown wallPicture false (1 / 2) (1 / 2) = some true := by
    unfold shown drawn
    rw [if_neg (by rw [hW, hH]; norm_num)]; simp
  have h2 : shown wallPicture true (1 / 2) (1 / 2) = some false := by
    rw [C136_partial wall 1 1 Transform.default wallPicture (1 / 2) (1 / 2) ⊤ one_pos wallPicture_rendered
      (by norm_num) (by rw [hW]; norm_num) (by norm_num) (by rw [hH]; norm_num) (fun _ _ _ _ _ => WithTop.coe_lt_top _)]
    rw [decide_eq_false (not_not_intro hcov)]
  have h3 : shown wallPicture true (1 / 2) 1 = none := by
    have := (C136_edges wallPicture (by simp [wallPicture])).2 (1 / 2) (by norm_num) (by rw [hW]; norm_num)
    rwa [hH] at this
  refine ⟨fun h => ?_, ⟨h1, hcov⟩, ⟨h2, hncov⟩, h3⟩
  have := h wall 1 1 Transform.default wallPicture true (1 / 2) (1 / 2) ((1 / 2 : ℝ) : WithTop ℝ) wall_straight one_pos (fun _ _ => wall_opaque _)
    (fun X Y sm hsm => by
      have : sm = look := by simpa [wallPicture] using hsm
      rw [this]; simp [look, dot]) wallPicture_rendered (by norm_num) (by rw [hW]; norm_num) (by norm_num) (by rw [hH]; norm_num)
  rw [h2, decide_eq_true hncov] at this
  simp at this

end
end Huira.Aov
