import Verif.Loader.Place
/-!
# C108: a loaded model, instanced, has every mesh where the file puts it
-/
set_option linter.unusedSimpArgs false
set_option linter.unusedVariables false
namespace Huira.Loader
open V3 Rot Xform

/-! ## Specification -/

/-- The product of transforms as the view computes it (`Transform::operator*`; it does not throw for the transforms at hand, C64). -/
noncomputable def mulX (a b : Transform) : Transform := (a.compose b).getD a

/-- What the view of a scene collects from an instance of a model placed at `Ts` (one transform per moment of the exposure). -/
noncomputable def shown (Ts : List Transform) (tree : Collect.Node Transform) : Collect.St Transform :=
  Collect.modelNode mulX {} Ts tree

/-- A drawn primitive `y` is the file's mesh `x.1`, drawn at every moment where the model instance puts the place `x.2` of the file. -/
def Agree (prims : List Nat) (Ts : List Transform) (x : Nat × List AiMat) (y : Nat × List Transform) : Prop :=
  prims[x.1]? = some y.1 ∧ List.Forall₂ (fun T t => ∀ p, t.applyPoint p = T.applyPoint (chain x.2 p)) Ts y.2

/-- The model shows every mesh the file mentions, once per mention and where the file puts it, and nothing else. -/
def Faithful (prims : List Nat) (root : AiNode) (tree : Collect.Node Transform) : Prop :=
  ∀ Ts : List Transform, (∀ T ∈ Ts, Valid T ∧ Uniform T) → ∃ l, (Collect.flat (shown Ts tree).primitives).Perm l ∧
    List.Forall₂ (Agree prims Ts) (placed root) l ∧ (shown Ts tree).lights = [] ∧ (shown Ts tree).unresolved = []

/-- **C108 in full**: every file whose nodes are invertible maps loads, and once instanced every mesh is where the file puts it. -/
def C108_full : Prop := ∀ (prims : List Nat) (root : AiNode), (∀ x ∈ placed root, x.1 < prims.length ∧ ∀ m ∈ x.2, m.volume ≠ 0) →
  ∃ tree, (processRoot prims root).val = some tree ∧ Faithful prims root tree

/-! ## Products -/

theorem mulX_right {T t : Transform} (hT : Valid T) (hu : Uniform T) (ht : Valid t) :
    Valid (mulX T t) ∧ (∀ p, (mulX T t).applyPoint p = T.applyPoint (t.applyPoint p)) ∧ (Uniform t → Uniform (mulX T t)) := by
  obtain ⟨c, hc, hv, hp, _⟩ := C64_compose_partial T t hT ht hu
  obtain ⟨c', hc', _, _, hs, _⟩ := compose_some hT.rot ht.rot
  have : mulX T t = c := by unfold mulX; rw [hc]; rfl
  rw [this]
  refine ⟨hv, hp, fun h => ?_⟩
  rw [hc] at hc'
  obtain rfl := Option.some.inj hc'
  unfold Uniform at *
  rw [hs]
  simp only [had]
  rw [h.1, hu.1, h.2, hu.2]
  exact ⟨rfl, rfl⟩

theorem default_valid : Valid Transform.default := ⟨ortho_one.isRotation, one_ne_zero, one_ne_zero, one_ne_zero⟩

theorem mulX_default {T : Transform} (hT : Valid T) (p : V3) : (mulX T Transform.default).applyPoint p = T.applyPoint p := by
  obtain ⟨c, hc, hp⟩ := C64_compose_iff T Transform.default hT default_valid
  have : mulX T Transform.default = c := by unfold mulX; rw [hc]; rfl
  rw [this, (hp p).2, (C64_default p).1]
  show M3.one.mulVec _ = had T.scale (M3.one.mulVec _)
  rw [one_mulVec, one_mulVec]

/-! ## Collecting -/

/-- The instances of a node, drawn. -/
theorem collect_insts (Ts : List Transform) (rest : List (Collect.Node Transform)) : ∀ (ps : List Nat) (s : Collect.St Transform), Collect.Inv s →
    ∃ s', Collect.modelList mulX s Ts (ps.map inst ++ rest) = Collect.modelList mulX s' Ts rest ∧ Collect.Inv s' ∧
      (Collect.flat s'.primitives).Perm (Collect.flat s.primitives ++ ps.map fun p => (p, Ts.map fun T => mulX T Transform.default)) ∧
      s'.lights = s.lights ∧ s'.unresolved = s.unresolved
  | [], s, h => ⟨s, by simp, h, by simp, rfl, rfl⟩
  | p :: ps, s, h => by
    have hl : (s.addPrim p (Ts.map fun T => mulX T Transform.default)).lights = s.lights := by unfold Collect.St.addPrim; split <;> rfl
    have hu : (s.addPrim p (Ts.map fun T => mulX T Transform.default)).unresolved = s.unresolved := by
      unfold Collect.St.addPrim; split <;> rfl
    obtain ⟨s', e, hi, hp, h1, h2⟩ := collect_insts Ts rest ps _ (Collect.inv_addPrim h p (Ts.map fun T => mulX T Transform.default))
    refine ⟨s', ?_, hi, ?_, h1.trans hl, h2.trans hu⟩
    · rw [← e, List.map_cons, List.cons_append, Collect.modelList]
      rfl
    · refine hp.trans ?_
      have := (Collect.flat_addPrim h p (Ts.map fun T => mulX T Transform.default)).append_right
        (ps.map fun p => (p, Ts.map fun T => mulX T Transform.default))
      simpa [List.append_assoc] using this

theorem instances_val (prims : List Nat) : ∀ is : List Nat, (∀ i ∈ is, i < prims.length) →
    ∃ ps, (instances prims is).val = some (ps.map inst) ∧ List.Forall₂ (fun (i : Nat) p => prims[i]? = some p) is ps ∧
      (is.filterMap fun i => prims[i]?) = ps
  | [], _ => ⟨[], by simp [instances, Out.pure], .nil, rfl⟩
  | i :: is, h => by
    obtain ⟨ps, h1, h2, h3⟩ := instances_val prims is (fun j hj => h j (List.mem_cons_of_mem _ hj))
    have hi : i < prims.length := h i (by simp)
    refine ⟨prims[i] :: ps, ?_, .cons (by simp) h2, ?_⟩
    · rw [instances, List.getElem?_eq_getElem hi]
      simp only [Out.bind, h1, Out.pure, List.map_cons]
    · rw [List.filterMap_cons, List.getElem?_eq_getElem hi, h3]

/-- The drawn meshes of one node. -/
theorem agree_own {prims : List Nat} {Ts : List Transform} {m : AiMat} {t : Transform} (ht : Valid t)
    (hm : ∀ p, t.applyPoint p = m.apply p) (hT : ∀ T ∈ Ts, Valid T ∧ Uniform T) {is ps : List Nat}
    (h : List.Forall₂ (fun (i : Nat) p => prims[i]? = some p) is ps) :
    List.Forall₂ (Agree prims Ts) (is.map fun i => (i, [m]))
      (ps.map fun p => (p, (Ts.map fun T => mulX T t).map fun T => mulX T Transform.default)) := by
  rw [List.forall₂_map_left_iff, List.forall₂_map_right_iff]
  refine h.imp fun i p hp => ⟨hp, ?_⟩
  simp only
  rw [List.map_map, List.forall₂_map_right_iff, List.forall₂_same]
  intro T hT' q
  obtain ⟨v, e, _⟩ := mulX_right (hT T hT').1 (hT T hT').2 ht
  simp only [Function.comp, chain, List.foldr_cons, List.foldr_nil]
  rw [mulX_default v, e, hm]

/-- The drawn meshes of the nodes below. -/
theorem agree_below {prims : List Nat} {Ts : List Transform} {m : AiMat} {t : Transform} (ht : Valid t)
    (hm : ∀ p, t.applyPoint p = m.apply p) (hT : ∀ T ∈ Ts, Valid T ∧ Uniform T) {xs : List (Nat × List AiMat)}
    {l : List (Nat × List Transform)} (h : List.Forall₂ (Agree prims (Ts.map fun T => mulX T t)) xs l) :
    List.Forall₂ (Agree prims Ts) (xs.map fun x => (x.1, m :: x.2)) l := by
  rw [List.forall₂_map_left_iff]
  refine h.imp fun x y hy => ⟨hy.1, ?_⟩
  have h2 := hy.2
  rw [List.forall₂_map_left_iff] at h2
  refine ((List.forall₂_and_left _ _).2 ⟨hT, h2⟩ |>.imp fun T u hu q => ?_)
  obtain ⟨v, e, _⟩ := mulX_right hu.1.1 hu.1.2 ht
  rw [hu.2 q, e, hm]
  rfl

theorem map_uniform {Ts : List Transform} {t : Transform} (hT : ∀ T ∈ Ts, Valid T ∧ Uniform T) (ht : Valid t) (hu : Uniform t) :
    ∀ T ∈ Ts.map (fun T => mulX T t), Valid T ∧ Uniform T := by
  intro T h
  obtain ⟨T', h', rfl⟩ := List.mem_map.1 h
  obtain ⟨v, _, u⟩ := mulX_right (hT T' h').1 (hT T' h').2 ht
  exact ⟨v, u hu⟩

/-- The state after drawing. -/
def Drawn (prims : List Nat) (xs : List (Nat × List AiMat)) (Ts : List Transform) (s s' : Collect.St Transform) : Prop :=
  Collect.Inv s' ∧ s'.lights = s.lights ∧ s'.unresolved = s.unresolved ∧
  ∃ l, (Collect.flat s'.primitives).Perm (Collect.flat s.primitives ++ l) ∧ List.Forall₂ (Agree prims Ts) xs l

theorem Drawn.trans {prims : List Nat} {xs ys : List (Nat × List AiMat)} {Ts : List Transform} {a b c : Collect.St Transform}
    (h1 : Drawn prims xs Ts a b) (h2 : Drawn prims ys Ts b c) : Drawn prims (xs ++ ys) Ts a c := by
  obtain ⟨_, l1, u1, k1, p1, f1⟩ := h1
  obtain ⟨i2, l2, u2, k2, p2, f2⟩ := h2
  refine ⟨i2, l2.trans l1, u2.trans u1, k1 ++ k2, ?_, List.rel_append f1 f2⟩
  rw [← List.append_assoc]
  exact p2.trans (p1.append_right k2)

mutual
theorem node_ok (prims : List Nat) : ∀ n : AiNode, Rigid n → (∀ x ∈ placed n, x.1 < prims.length) →
    ∃ tree, (processNode prims n).val = some tree ∧ ∀ Ts : List Transform, (∀ T ∈ Ts, Valid T ∧ Uniform T) →
      ∀ s, Collect.Inv s → Drawn prims (placed n) Ts s (Collect.modelNode mulX s Ts tree)
  | .mk m meshes children, hr, hi => by
    rw [Rigid] at hr
    obtain ⟨hm, hu, hc⟩ := hr
    rw [placed] at hi
    obtain ⟨t, e, hv, ha, hsc, _⟩ := C108_node_partial m hm
    obtain ⟨ps, e1, f1, _⟩ := instances_val prims meshes (fun i h => hi _ (List.mem_append_left _ (List.mem_map.2 ⟨i, h, rfl⟩)))
    obtain ⟨cs, e2, f2⟩ := list_ok prims children hc
      (fun x h => hi (x.1, m :: x.2) (List.mem_append_right _ (List.mem_map.2 ⟨x, h, rfl⟩)))
    refine ⟨.mk [] t .none (ps.map inst ++ cs), ?_, ?_⟩
    · rw [processNode, e]
      simp only [Out.ofOption, Out.bind, Out.emit, e1, e2, Out.pure]
    · intro Ts hT s hs
      rw [Collect.modelNode, Collect.handle, placed]
      obtain ⟨s', e3, i3, p3, l3, u3⟩ := collect_insts (Ts.map fun T => mulX T t) cs ps s hs
      rw [e3]
      refine Drawn.trans (b := s') ⟨i3, l3, u3, _, p3, agree_own hv ha hT f1⟩ ?_
      by_cases hne : children = []
      · subst hne
        have : cs = [] := by simp [processList, Out.pure] at e2; exact e2
        subst this
        rw [Collect.modelList, placedList]
        exact ⟨i3, rfl, rfl, [], by simp, .nil⟩
      · obtain ⟨i4, l4, u4, k, p4, f4⟩ := f2 _ (map_uniform hT hv (hsc (hu hne))) s' i3
        exact ⟨i4, l4, u4, k, p4, agree_below hv ha hT f4⟩

theorem list_ok (prims : List Nat) : ∀ ns : List AiNode, RigidList ns → (∀ x ∈ placedList ns, x.1 < prims.length) →
    ∃ trees, (processList prims ns).val = some trees ∧ ∀ Ts : List Transform, (∀ T ∈ Ts, Valid T ∧ Uniform T) →
      ∀ s, Collect.Inv s → Drawn prims (placedList ns) Ts s (Collect.modelList mulX s Ts trees)
  | [], _, _ => ⟨[], by simp [processList, Out.pure], fun Ts _ s hs => by
      rw [Collect.modelList, placedList]; exact ⟨hs, rfl, rfl, [], by simp, .nil⟩⟩
  | n :: ns, hr, hi => by
    rw [RigidList] at hr
    rw [placedList] at hi
    obtain ⟨c, e1, f1⟩ := node_ok prims n hr.1 (fun x h => hi x (List.mem_append_left _ h))
    obtain ⟨cs, e2, f2⟩ := list_ok prims ns hr.2 (fun x h => hi x (List.mem_append_right _ h))
    refine ⟨c :: cs, ?_, ?_⟩
    · rw [processList]; simp only [Out.bind, e1, e2, Out.pure]
    · intro Ts hT s hs
      rw [Collect.modelList, placedList]
      have d1 := f1 Ts hT s hs
      exact d1.trans (f2 Ts hT _ d1.1)
end

theorem modelList_append (Ts : List Transform) (b : List (Collect.Node Transform)) : ∀ (a : List (Collect.Node Transform))
    (s : Collect.St Transform), Collect.modelList mulX s Ts (a ++ b) = Collect.modelList mulX (Collect.modelList mulX s Ts a) Ts b
  | [], s => by simp [Collect.modelList]
  | n :: a, s => by rw [List.cons_append, Collect.modelList, modelList_append Ts b a, Collect.modelList]

/-- **C108.** A file whose nodes are made of translations, rotations and positive scales, with uniform scale in nodes that have children,
loads, whatever its size and depth; wherever the model is instanced, each mesh the file mentions is drawn once per mention and every
point of it is where the file's matrices, from the root down, put it. -/
theorem C108_model_partial (prims : List Nat) (root : AiNode) (hr : Rigid root) (hi : ∀ x ∈ placed root, x.1 < prims.length) :
    ∃ tree, (processRoot prims root).val = some tree ∧ Faithful prims root tree := by
  obtain ⟨m, meshes, children⟩ := root
  rw [Rigid] at hr
  obtain ⟨hm, hu, hc⟩ := hr
  rw [placed] at hi
  obtain ⟨t, e, hv, ha, hsc, _⟩ := C108_node_partial m hm
  obtain ⟨ps, _, f1, e1⟩ := instances_val prims meshes (fun i h => hi _ (List.mem_append_left _ (List.mem_map.2 ⟨i, h, rfl⟩)))
  obtain ⟨cs, e2, f2⟩ := list_ok prims children hc
    (fun x h => hi (x.1, m :: x.2) (List.mem_append_right _ (List.mem_map.2 ⟨x, h, rfl⟩)))
  refine ⟨.mk [] t .none (cs ++ ps.map inst), ?_, ?_⟩
  · rw [processRoot, e, e1]
    simp only [Out.ofOption, Out.bind, e2, Out.pure]
  · intro Ts hT
    have hd : Drawn prims ((placedList children).map fun x => (x.1, m :: x.2)) Ts {}
        (Collect.modelList mulX {} (Ts.map fun T => mulX T t) cs) := by
      by_cases hne : children = []
      · subst hne
        have : cs = [] := by simp [processList, Out.pure] at e2; exact e2
        subst this
        rw [Collect.modelList, placedList]
        exact ⟨Collect.inv_init, rfl, rfl, [], by simp, .nil⟩
      · obtain ⟨i4, l4, u4, k, p4, f4⟩ := f2 _ (map_uniform hT hv (hsc (hu hne))) {} Collect.inv_init
        exact ⟨i4, l4, u4, k, p4, agree_below hv ha hT f4⟩
    obtain ⟨i4, l4, u4, k, p4, f4⟩ := hd
    obtain ⟨s', e3, i3, p3, l3, u3⟩ := collect_insts (Ts.map fun T => mulX T t) [] ps _ i4
    have es : shown Ts (.mk [] t .none (cs ++ ps.map inst)) = s' := by
      unfold shown
      rw [Collect.modelNode, Collect.handle, modelList_append]
      rw [List.append_nil, Collect.modelList] at e3
      exact e3
    rw [es, placed]
    refine ⟨_ ++ k, ?_, List.rel_append (agree_own hv ha hT f1) f4, l3.trans l4, u3.trans u4⟩
    refine p3.trans ((p4.append_right _).trans ?_)
    simp only [Collect.flat, List.flatMap_nil, List.nil_append]
    exact List.perm_append_comm

/-- A file with two levels: the root moves by (0,0,5), has mesh 1 twice; its child turns, doubles and moves, and has mesh 0. -/
def exFile : AiNode := .mk ⟨1, 0, 0, 0, 0, 1, 0, 0, 0, 0, 1, 5⟩ [1, 1] [.mk exTRS [0] []]

theorem exFile_ok : Rigid exFile ∧ ∀ x ∈ placed exFile, x.1 < [7, 8].length := by
  have l0 : len (⟨1, 0, 0⟩ : V3) = 1 := by unfold len dot; norm_num
  have l1 : len (⟨0, 1, 0⟩ : V3) = 1 := by unfold len dot; norm_num
  have l2 : len (⟨0, 0, 1⟩ : V3) = 1 := by unfold len dot; norm_num
  constructor
  · simp only [exFile, Rigid, RigidList, and_true]
    refine ⟨⟨?_, ?_, ?_, ?_, ?_, ?_, ?_⟩, fun _ => ?_, exTRS_ok.1, by simp⟩
    · norm_num [AiMat.col0, AiMat.col1, dot]
    · norm_num [AiMat.col0, AiMat.col2, dot]
    · norm_num [AiMat.col1, AiMat.col2, dot]
    · simp only [AiMat.col0, l0]; norm_num
    · simp only [AiMat.col1, l1]; norm_num
    · simp only [AiMat.col2, l2]; norm_num
    · norm_num [AiMat.volume, AiMat.col0, AiMat.col1, AiMat.col2, dot, cross]
    · simp only [SameScale, AiMat.col0, AiMat.col1, AiMat.col2, l0, l1, l2]; exact ⟨trivial, trivial⟩
  · simp [exFile, placed, placedList]

/-- In the picture of that file, instanced at the origin, primitive 7 (mesh 0) has its point (1,0,0) at (3,2,8). -/
example : ∃ tree l, (processRoot [7, 8] exFile).val = some tree ∧
    (Collect.flat (shown [Transform.default] tree).primitives).Perm l ∧ ∃ t, (7, [t]) ∈ l ∧ t.applyPoint ⟨1, 0, 0⟩ = ⟨3, 2, 8⟩ := by
  obtain ⟨tree, h1, h2⟩ := C108_model_partial [7, 8] exFile exFile_ok.1 exFile_ok.2
  obtain ⟨l, p, f, _⟩ := h2 [Transform.default] (by intro T h; simp only [List.mem_singleton] at h; subst h; exact ⟨default_valid, rfl, rfl⟩)
  refine ⟨tree, l, h1, p, ?_⟩
  simp only [exFile, placed, placedList, List.map_cons, List.map_nil, List.append_nil, List.cons_append, List.nil_append] at f
  rcases f with _ | ⟨_, f⟩
  rcases f with _ | ⟨_, f⟩
  rcases f with _ | ⟨⟨a, b⟩, f⟩
  rename_i y _
  obtain ⟨y1, y2⟩ := y
  simp only [List.getElem?_cons_zero, Option.some.injEq] at a
  subst a
  rcases b with _ | ⟨hb, b⟩
  rcases b
  rename_i t
  refine ⟨t, by simp, ?_⟩
  rw [hb, (C64_default _).1]
  ext <;> norm_num [chain, exTRS, AiMat.apply]

theorem instances_some (prims : List Nat) : ∀ (is : List Nat) l, (instances prims is).val = some l → ∀ i ∈ is, i < prims.length
  | [], _, _, i, h => by cases h
  | j :: is, l, h, i, hi => by
    rw [instances] at h
    cases hj : prims[j]? with
    | none => rw [hj] at h; simp [Out.throw] at h
    | some p =>
      rw [hj] at h
      cases hr : (instances prims is).val with
      | none => simp [Out.bind, hr] at h
      | some l' =>
        rcases List.mem_cons.1 hi with rfl | hi
        · exact (List.getElem?_eq_some_iff.1 hj).1
        · exact instances_some prims is l' hr i hi

mutual
theorem node_some (prims : List Nat) : ∀ (n : AiNode) t, (processNode prims n).val = some t → ∀ x ∈ placed n, x.1 < prims.length
  | .mk m meshes children, t, h, x, hx => by
    rw [processNode] at h
    cases hc : convertTransform m with
    | none => simp [Out.bind, Out.ofOption, hc] at h
    | some tr =>
      cases hi : (instances prims meshes).val with
      | none => simp [Out.bind, Out.ofOption, Out.emit, hc, hi] at h
      | some is =>
        cases hl : (processList prims children).val with
        | none => simp [Out.bind, Out.ofOption, Out.emit, hc, hi, hl] at h
        | some cs =>
          rw [placed] at hx
          rcases List.mem_append.1 hx with hx | hx
          · obtain ⟨i, h1, rfl⟩ := List.mem_map.1 hx
            exact instances_some prims meshes is hi i h1
          · obtain ⟨y, h1, rfl⟩ := List.mem_map.1 hx
            exact list_some prims children cs hl y h1
theorem list_some (prims : List Nat) : ∀ (ns : List AiNode) ts, (processList prims ns).val = some ts → ∀ x ∈ placedList ns, x.1 < prims.length
  | [], _, _, x, hx => by simp [placedList] at hx
  | n :: ns, ts, h, x, hx => by
    rw [processList] at h
    cases hn : (processNode prims n).val with
    | none => simp [Out.bind, hn] at h
    | some c =>
      cases hl : (processList prims ns).val with
      | none => simp [Out.bind, hn, hl] at h
      | some cs =>
        rw [placedList] at hx
        rcases List.mem_append.1 hx with hx | hx
        · exact node_some prims n c hn x hx
        · exact list_some prims ns cs hl x hx
end

/-- **C108, meshes that do not exist.** If a node below the root mentions a mesh the file does not have, the load throws; mentioned by the
root itself, such a mesh is left out. -/
theorem C108_dangling (prims : List Nat) (m : AiMat) (meshes : List Nat) (children : List AiNode) :
    ((∃ x ∈ placedList children, prims.length ≤ x.1) → (processRoot prims (.mk m meshes children)).val = none) ∧
    (processRoot prims (.mk m meshes children)).val = (processRoot prims (.mk m (meshes.filter fun i => i < prims.length) children)).val := by
  constructor
  · rintro ⟨x, hx, hl⟩
    rw [processRoot]
    cases hc : convertTransform m with
    | none => simp [Out.bind, Out.ofOption, hc]
    | some tr =>
      cases hn : (processList prims children).val with
      | none => simp [Out.bind, Out.ofOption, hc, hn]
      | some cs => exact absurd (list_some prims children cs hn x hx) (by omega)
  · have : (meshes.filterMap fun i => prims[i]?) = (meshes.filter fun i => i < prims.length).filterMap fun i => prims[i]? := by
      rw [List.filterMap_filter]
      apply List.filterMap_congr
      intro i _
      by_cases h : i < prims.length
      · simp [h]
      · simp [h]
    rw [processRoot, processRoot, this]

/-- Both parts happen: mesh 3 of a two-mesh file, below the root and at the root. -/
example : (processRoot [7, 8] (.mk exTRS [] [.mk exTRS [3] []])).val = none ∧
    ((processRoot [7, 8] (.mk exTRS [3] [])).val).isSome := by
  refine ⟨(C108_dangling _ _ _ _).1 ⟨(3, [exTRS]), by simp [placedList, placed], by simp⟩, ?_⟩
  obtain ⟨t, h, _⟩ := C108_node_partial exTRS exTRS_ok.1
  simp [processRoot, processList, h, Out.bind, Out.ofOption, Out.pure]

/-- **C108 is violated by mirrored nodes**: a file with a node mirrored in x (scale −1, allowed by glTF and others) does not load. -/
theorem C108_violated : ¬ C108_full := by
  intro h
  obtain ⟨t, ht, _⟩ := h [0] (.mk ⟨-1, 0, 0, 0, 0, 1, 0, 0, 0, 0, 1, 0⟩ [0] []) (by
    intro x hx
    simp only [placed, placedList, List.map_cons, List.map_nil, List.append_nil, List.mem_singleton] at hx
    subst hx
    refine ⟨by simp, ?_⟩
    intro m hm
    simp only [List.mem_singleton] at hm
    subst hm
    norm_num [AiMat.volume, AiMat.col0, AiMat.col1, AiMat.col2, dot, cross])
  rw [processRoot, C108_refused _ (Or.inl (by norm_num [AiMat.volume, AiMat.col0, AiMat.col1, AiMat.col2, dot, cross]))] at ht
  simp [Out.ofOption, Out.bind] at ht

end Huira.Loader
