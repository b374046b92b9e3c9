import Verif.Render.TileProps
set_option linter.unusedSimpArgs false
/-!
# C49: what the path tracer computes, as plain nested loops

`TileModel` follows the tile jobs step by step, so that they can be interleaved. Here the same computation is specified as
nested loops (every pixel of the tile in raster order; per pixel up to `spp` samples; per sample one path of at most
`maxBounces` vertices; at every shaded vertex every light exactly once, in order), independently of the step function,
and every complete execution is shown to compute it.
-/
namespace Huira.Tiles

variable {Time R P V : Type}

/-! ### Specification -/

/-- One light at a vertex: its transform at the shutter time, a sample, the shadow ray. -/
def lightOnce (K : Kernel Time R P V) (t : Time) (s : R × P) (l : Nat) : R × P :=
  ((K.lightSample l s.1 (K.lightTransform l t s.2)).1,
    K.lightShade l t (K.lightSample l s.1 (K.lightTransform l t s.2)).2)

/-- Every light of the scene once, in order. -/
def allLights (u : Setup) (K : Kernel Time R P V) (t : Time) (s : R × P) : R × P :=
  (List.range u.lights).foldl (lightOnce K t) s

/-- A path traced at shutter time `t` that has made `b` bounces: from (sampler, private data) to the same at its end. -/
inductive PathTo (u : Setup) (K : Kernel Time R P V) (t : Time) : Nat → R × P → R × P → Prop
  | full {b s} (h : u.maxBounces ≤ b) : PathTo u K t b s s
  | miss {b r p p'} (h : b < u.maxBounces) (hi : K.intersect b t p = (.miss, p')) : PathTo u K t b (r, p) (r, p')
  | light {b r p p'} (h : b < u.maxBounces) (hi : K.intersect b t p = (.light, p')) :
      PathTo u K t b (r, p) (r, K.hitLight b t p')
  | pass {b r p p' s'} (h : b < u.maxBounces) (hi : K.intersect b t p = (.pass, p')) (hr : PathTo u K t b (r, p') s') :
      PathTo u K t b (r, p) s'
  | volume {b r p p' s'} (h : b < u.maxBounces) (hi : K.intersect b t p = (.volume, p'))
      (hr : PathTo u K t (b + 1) ((allLights u K t (r, p')).1, K.scatterVolume (allLights u K t (r, p')).2) s') :
      PathTo u K t b (r, p) s'
  | absorbed {b r p p' p''} (h : b < u.maxBounces) (hi : K.intersect b t p = (.surface, p'))
      (hs : K.scatter b (allLights u K t (r, p')).2 = (false, p'')) :
      PathTo u K t b (r, p) ((allLights u K t (r, p')).1, p'')
  | scattered {b r p p' p'' s'} (h : b < u.maxBounces) (hi : K.intersect b t p = (.surface, p'))
      (hs : K.scatter b (allLights u K t (r, p')).2 = (true, p''))
      (hr : PathTo u K t (b + 1) ((allLights u K t (r, p')).1, p'') s') : PathTo u K t b (r, p) s'

/-- The camera ray of a sample, and with motion blur a new shutter time. -/
def ray (u : Setup) (K : Kernel Time R P V) (x y : Nat) (s : Time × R × P) : Time × R × P :=
  if u.blur then ((K.drawTime (K.jitter x y s.2.2)).1, s.2.1, (K.drawTime (K.jitter x y s.2.2)).2)
  else (s.1, s.2.1, K.jitter x y s.2.2)

/-- The samples of a pixel from number `k` on. -/
inductive SamplesTo (u : Setup) (K : Kernel Time R P V) (x y : Nat) : Nat → Time × R × P → Time × R × P → Prop
  | full {k s} (h : u.spp ≤ k) : SamplesTo u K x y k s s
  | last {k s q p} (h : k < u.spp) (hp : PathTo u K (ray u K x y s).1 0 (ray u K x y s).2 q)
      (ha : K.accumulate k q.2 = (true, p)) : SamplesTo u K x y k s ((ray u K x y s).1, q.1, p)
  | next {k s q p s'} (h : k < u.spp) (hp : PathTo u K (ray u K x y s).1 0 (ray u K x y s).2 q)
      (ha : K.accumulate k q.2 = (false, p)) (hr : SamplesTo u K x y (k + 1) ((ray u K x y s).1, q.1, p) s') :
      SamplesTo u K x y k s s'

/-- A list of pixels one after the other, with the values written. -/
inductive PixelsTo (u : Setup) (K : Kernel Time R P V) :
    List (Nat × Nat) → Time × R × P → Time × R × P → List ((Nat × Nat) × V) → Prop
  | nil {s} : PixelsTo u K [] s s []
  | cons {x y l s s1 s' vs} (hs : SamplesTo u K x y 0 (s.1, s.2.1, K.startPixel s.2.2) s1) (hr : PixelsTo u K l s1 s' vs) :
      PixelsTo u K ((x, y) :: l) s s' (((x, y), K.result s1.2.2) :: vs)

/-- The pixels of tile `i` in raster order, from pixel (x, y) on. -/
def rasterFrom (u : Setup) (i x y : Nat) : List (Nat × Nat) :=
  ((List.range' x (x1 u.W u.T i - x)).map fun a => (a, y)) ++
    (List.range' (y + 1) (y1 u.W u.H u.T i - (y + 1))).flatMap fun b =>
      (List.range' (x0 u.W u.T i) (x1 u.W u.T i - x0 u.W u.T i)).map fun a => (a, b)

/-- The pixels of tile `i` in raster order. -/
def raster (u : Setup) (i : Nat) : List (Nat × Nat) :=
  (List.range' (y0 u.W u.T i) (y1 u.W u.H u.T i - y0 u.W u.T i)).flatMap fun b =>
    (List.range' (x0 u.W u.T i) (x1 u.W u.T i - x0 u.W u.T i)).map fun a => (a, b)

/-- Whole tiles one after the other; every tile starts with its own private data. -/
inductive TilesTo (u : Setup) (K : Kernel Time R P V) :
    List Nat → Time × R → Time × R → List ((Nat × Nat) × V) → Prop
  | nil {s} : TilesTo u K [] s s []
  | cons {i l t r s1 s' vs ws} (hp : PixelsTo u K (raster u i) (t, r, K.seed i) s1 vs)
      (hr : TilesTo u K l (s1.1, s1.2.1) s' ws) : TilesTo u K (i :: l) (t, r) s' (vs ++ ws)

/-- The values written at a pixel. -/
def valuesAt [DecidableEq (Nat × Nat)] (vs : List ((Nat × Nat) × V)) (x y : Nat) : List V :=
  (vs.filter fun v => v.1 = (x, y)).map Prod.snd

/-! ### One job run alone -/

/-- `m` steps of tile `i`. -/
def go (u : Setup) (K : Kernel Time R P V) (i m : Nat) (c : Cfg Time R P V) : Cfg Time R P V :=
  run u K (List.replicate m i) c

theorem go_zero (u : Setup) (K : Kernel Time R P V) (i : Nat) (c : Cfg Time R P V) : go u K i 0 c = c := rfl

theorem go_succ (u : Setup) (K : Kernel Time R P V) (i m : Nat) (c : Cfg Time R P V) :
    go u K i (m + 1) c = go u K i m (step u K i c) := by
  unfold go; rw [List.replicate_succ]; rfl

theorem go_add (u : Setup) (K : Kernel Time R P V) (i m k : Nat) (c : Cfg Time R P V) :
    go u K i (m + k) c = go u K i k (go u K i m c) := by
  unfold go; rw [List.replicate_add, run_append]

/-- The job of tile `i` is `j`, the shared variables are `t` and `r`, and the pixels are `g`. -/
structure At (c : Cfg Time R P V) (i : Nat) (j : Job P) (t : Time) (r : R) (g : Nat → Nat → List V) : Prop where
  job : c.job i = j
  time : c.time = t
  rng : c.rng = r
  log : c.log = g

/-- Tile `i` ends within `n` steps. -/
def Ends (u : Setup) (K : Kernel Time R P V) (i n : Nat) (c : Cfg Time R P V) : Prop :=
  ((go u K i n c).job i).phase = .done

theorem ends_succ (u : Setup) (K : Kernel Time R P V) (i n : Nat) (c : Cfg Time R P V) (h : Ends u K i (n + 1) c) :
    Ends u K i n (step u K i c) := by
  unfold Ends at h ⊢; rwa [go_succ] at h

theorem ends_pos (u : Setup) (K : Kernel Time R P V) (i n : Nat) (c : Cfg Time R P V) (h : Ends u K i n c)
    (hp : (c.job i).phase ≠ .done) : ∃ m, n = m + 1 := by
  cases n with
  | zero => exact absurd h hp
  | succ m => exact ⟨m, rfl⟩

theorem ends_sub (u : Setup) (K : Kernel Time R P V) (i n m : Nat) (c : Cfg Time R P V) (h : Ends u K i n c)
    (hp : ((go u K i m c).job i).phase ≠ .done) : m ≤ n ∧ Ends u K i (n - m) (go u K i m c) := by
  have hle : m ≤ n := by
    by_contra hlt
    obtain ⟨d, rfl⟩ := Nat.exists_eq_add_of_le (not_le.1 hlt).le
    rw [go_add] at hp
    unfold Ends go at h
    apply hp
    rw [show go u K i d (go u K i n c) = go u K i n c from run_done u K i d _ h]
    exact h
  refine ⟨hle, ?_⟩
  obtain ⟨d, rfl⟩ := Nat.exists_eq_add_of_le hle
  unfold Ends at h ⊢
  rw [go_add] at h
  simpa using h

/-- The light loop. -/
theorem lights_go (u : Setup) (K : Kernel Time R P V) (i k : Nat) : ∀ (c : Cfg Time R P V) (j : Job P) (t : Time) (r : R)
    (g : Nat → Nat → List V), At c i j t r g → j.phase = .lightTransform → j.light + k = u.lights →
    ∃ m q, q = (List.range' j.light k).foldl (lightOnce K t) (r, j.priv) ∧
      At (go u K i m c) i { j with light := u.lights, phase := .scatter, priv := q.2 } t q.1 g := by
  induction k with
  | zero =>
    intro c j t r g h hp hl
    refine ⟨1, (r, j.priv), rfl, ?_⟩
    rw [go_succ, go_zero]
    have h1 : ¬ j.light < u.lights := by omega
    have h2 : j.light = u.lights := by omega
    constructor <;> simp [step, Cfg.setJob, h.job, hp, h1, h.time, h.rng, h.log, ← h2]
  | succ k ih =>
    intro c j t r g h hp hl
    have h1 : j.light < u.lights := by omega
    have s1 : At (step u K i c) i { j with phase := .lightSample, priv := K.lightTransform j.light t j.priv } t r g := by
      constructor <;> simp [step, Cfg.setJob, h.job, hp, h1, h.time, h.rng, h.log]
    have s2 : At (step u K i (step u K i c)) i
        { j with phase := .lightShade, priv := (K.lightSample j.light r (K.lightTransform j.light t j.priv)).2 } t
        (K.lightSample j.light r (K.lightTransform j.light t j.priv)).1 g := by
      constructor <;> simp [step.eq_def u K i (step u K i c), Cfg.setJob, s1.job, s1.time, s1.rng, s1.log]
    have s3 : At (step u K i (step u K i (step u K i c))) i
        { j with light := j.light + 1, phase := .lightTransform, priv := (lightOnce K t (r, j.priv) j.light).2 } t
        (lightOnce K t (r, j.priv) j.light).1 g := by
      constructor <;> simp [step.eq_def u K i (step u K i (step u K i c)), Cfg.setJob, s2.job, s2.time, s2.rng, s2.log,
        lightOnce]
    obtain ⟨m, q, hq, hat⟩ := ih _ _ _ _ _ s3 rfl (by simp only; omega)
    refine ⟨m + 3, q, ?_, ?_⟩
    · rw [hq, List.range'_succ, List.foldl_cons]
    · rw [show m + 3 = m + 1 + 1 + 1 from rfl, go_succ, go_succ, go_succ]
      exact hat

/-- A path. -/
theorem path_go (u : Setup) (K : Kernel Time R P V) (i : Nat) (n : Nat) : ∀ (c : Cfg Time R P V) (j : Job P) (t : Time)
    (r : R) (g : Nat → Nat → List V), At c i j t r g → j.phase = .bounce → Ends u K i n c →
    ∃ m q j', PathTo u K t j.bounce (r, j.priv) q ∧ At (go u K i m c) i j' t q.1 g ∧ j'.phase = .accumulate ∧
      j'.priv = q.2 ∧ j'.x = j.x ∧ j'.y = j.y ∧ j'.s = j.s := by
  induction n using Nat.strong_induction_on with
  | _ n ih =>
  intro c j t r g h hp hn
  obtain ⟨n1, rfl⟩ := ends_pos u K i n c hn (by rw [h.job, hp]; decide)
  have hn1 := ends_succ u K i n1 c hn
  by_cases hb : j.bounce < u.maxBounces
  · obtain ⟨o, p', ho⟩ : ∃ o p', K.intersect j.bounce t j.priv = (o, p') := ⟨_, _, rfl⟩
    cases o with
    | miss =>
      refine ⟨1, (r, p'), { j with phase := .accumulate, priv := p' }, .miss hb ho, ?_, rfl, rfl, rfl, rfl, rfl⟩
      rw [go_succ, go_zero]
      constructor <;> simp [step, Cfg.setJob, h.job, hp, hb, h.time, h.rng, h.log, ho]
    | light =>
      have s1 : At (step u K i c) i { j with phase := .hitLight, priv := p' } t r g := by
        constructor <;> simp [step, Cfg.setJob, h.job, hp, hb, h.time, h.rng, h.log, ho]
      refine ⟨2, (r, K.hitLight j.bounce t p'), { j with phase := .accumulate, priv := K.hitLight j.bounce t p' },
        .light hb ho, ?_, rfl, rfl, rfl, rfl, rfl⟩
      rw [show (2 : Nat) = 0 + 1 + 1 from rfl, go_succ, go_succ, go_zero]
      constructor <;> simp [step.eq_def u K i (step u K i c), Cfg.setJob, s1.job, s1.time, s1.rng, s1.log]
    | pass =>
      have s1 : At (step u K i c) i { j with priv := p' } t r g := by
        constructor <;> simp [step, Cfg.setJob, h.job, hp, hb, h.time, h.rng, h.log, ho]
      obtain ⟨m, q, j', h1, h2, h3⟩ := ih n1 (by omega) _ _ _ _ _ s1 hp hn1
      exact ⟨m + 1, q, j', .pass hb ho h1, by rw [go_succ]; exact h2, h3⟩
    | volume =>
      have s1 : At (step u K i c) i { j with light := 0, volume := true, phase := .lightTransform, priv := p' } t r g := by
        constructor <;> simp [step, Cfg.setJob, h.job, hp, hb, h.time, h.rng, h.log, ho]
      obtain ⟨m, q, hq, hat⟩ := lights_go u K i u.lights _ _ _ _ _ s1 rfl (by simp)
      have hq' : q = allLights u K t (r, p') := by rw [hq, allLights, List.range_eq_range']
      obtain ⟨hle, hn2⟩ := ends_sub u K i n1 m _ hn1 (by rw [hat.job]; simp)
      obtain ⟨n2, hn2e⟩ := ends_pos u K i _ _ hn2 (by rw [hat.job]; simp)
      rw [hn2e] at hn2
      have hn3 := ends_succ u K i n2 _ hn2
      have s2 : At (step u K i (go u K i m (step u K i c))) i { j with light := u.lights, volume := true, bounce := j.bounce + 1, phase := .bounce, priv := K.scatterVolume q.2 } t q.1 g := by
        constructor <;> simp [step.eq_def u K i (go u K i m (step u K i c)), Cfg.setJob, hat.job, hat.time, hat.rng, hat.log]
      obtain ⟨m', q', j', h1, h2, h3⟩ := ih n2 (by omega) _ _ _ _ _ s2 rfl hn3
      refine ⟨1 + m + 1 + m', q', j', .volume hb ho ?_, ?_, h3⟩
      · rw [← hq']; exact h1
      · rw [go_add, go_add, go_add]; exact h2
    | surface =>
      have s1 : At (step u K i c) i { j with light := 0, volume := false, phase := .lightTransform, priv := p' } t r g := by
        constructor <;> simp [step, Cfg.setJob, h.job, hp, hb, h.time, h.rng, h.log, ho]
      obtain ⟨m, q, hq, hat⟩ := lights_go u K i u.lights _ _ _ _ _ s1 rfl (by simp)
      have hq' : q = allLights u K t (r, p') := by rw [hq, allLights, List.range_eq_range']
      obtain ⟨hle, hn2⟩ := ends_sub u K i n1 m _ hn1 (by rw [hat.job]; simp)
      obtain ⟨n2, hn2e⟩ := ends_pos u K i _ _ hn2 (by rw [hat.job]; simp)
      rw [hn2e] at hn2
      have hn3 := ends_succ u K i n2 _ hn2
      obtain ⟨bs, p'', hs⟩ : ∃ bs p'', K.scatter j.bounce q.2 = (bs, p'') := ⟨_, _, rfl⟩
      cases bs with
      | false =>
        refine ⟨1 + m + 1, (q.1, p''), { j with light := u.lights, volume := false, phase := .accumulate, priv := p'' },
          ?_, ?_, rfl, rfl, rfl, rfl, rfl⟩
        · rw [hq'] at hs ⊢; exact .absorbed hb ho hs
        · rw [go_add, go_add]
          show At (step u K i (go u K i m (step u K i c))) i _ _ _ _
          constructor <;> simp [step.eq_def u K i (go u K i m (step u K i c)), Cfg.setJob, hat.job, hat.time, hat.rng,
            hat.log, hs]
      | true =>
        have s2 : At (step u K i (go u K i m (step u K i c))) i { j with light := u.lights, volume := false, bounce := j.bounce + 1, phase := .bounce, priv := p'' } t q.1 g := by
          constructor <;> simp [step.eq_def u K i (go u K i m (step u K i c)), Cfg.setJob, hat.job, hat.time, hat.rng,
            hat.log, hs]
        obtain ⟨m', q', j', h1, h2, h3⟩ := ih n2 (by omega) _ _ _ _ _ s2 rfl hn3
        refine ⟨1 + m + 1 + m', q', j', ?_, ?_, h3⟩
        · rw [hq'] at hs h1; exact .scattered hb ho hs h1
        · rw [go_add, go_add, go_add]; exact h2
  · refine ⟨1, (r, j.priv), { j with phase := .accumulate }, .full (not_lt.1 hb), ?_, rfl, rfl, rfl, rfl, rfl⟩
    rw [go_succ, go_zero]
    constructor <;> simp [step, Cfg.setJob, h.job, hp, hb, h.time, h.rng, h.log]

/-- The samples of a pixel. -/
theorem samples_go (u : Setup) (K : Kernel Time R P V) (i : Nat) (n : Nat) : ∀ (c : Cfg Time R P V) (j : Job P) (t : Time)
    (r : R) (g : Nat → Nat → List V), At c i j t r g → j.phase = .sample → Ends u K i n c →
    ∃ m s' j', SamplesTo u K j.x j.y j.s (t, r, j.priv) s' ∧ 0 < m ∧ At (go u K i m c) i j' s'.1 s'.2.1 g ∧
      j'.phase = .write ∧ j'.priv = s'.2.2 ∧ j'.x = j.x ∧ j'.y = j.y := by
  induction n using Nat.strong_induction_on with
  | _ n ih =>
  intro c j t r g h hp hn
  obtain ⟨n1, rfl⟩ := ends_pos u K i n c hn (by rw [h.job, hp]; decide)
  have hn1 := ends_succ u K i n1 c hn
  by_cases hb : j.s < u.spp
  · have s1 : At (step u K i c) i { j with bounce := 0, phase := .bounce, priv := (ray u K j.x j.y (t, r, j.priv)).2.2 }
        (ray u K j.x j.y (t, r, j.priv)).1 r g := by
      by_cases hbl : u.blur = true
      · constructor <;> simp [step, Cfg.setJob, h.job, hp, hb, h.time, h.rng, h.log, hbl, ray]
      · constructor <;> simp [step, Cfg.setJob, h.job, hp, hb, h.time, h.rng, h.log, hbl, ray]
    have hr2 : (ray u K j.x j.y (t, r, j.priv)).2.1 = r := by unfold ray; split <;> rfl
    obtain ⟨m, q, j', h1, h2, h3, h4, h5, h6, h7⟩ := path_go u K i n1 _ _ _ _ _ s1 rfl hn1
    have hpath : PathTo u K (ray u K j.x j.y (t, r, j.priv)).1 0 (ray u K j.x j.y (t, r, j.priv)).2 q := by
      have : (ray u K j.x j.y (t, r, j.priv)).2 = (r, (ray u K j.x j.y (t, r, j.priv)).2.2) := Prod.ext hr2 rfl
      rw [this]; exact h1
    obtain ⟨hle, hn2⟩ := ends_sub u K i n1 m _ hn1 (by rw [h2.job, h3]; decide)
    obtain ⟨n2, hn2e⟩ := ends_pos u K i _ _ hn2 (by rw [h2.job, h3]; decide)
    rw [hn2e] at hn2
    have hn3 := ends_succ u K i n2 _ hn2
    simp only at h5 h6 h7
    obtain ⟨bs, p, hs⟩ : ∃ bs p, K.accumulate j.s q.2 = (bs, p) := ⟨_, _, rfl⟩
    cases bs with
    | true =>
      refine ⟨1 + m + 1, _, { j' with phase := .write, priv := p }, .last hb hpath hs, by omega, ?_, rfl, rfl, h5, h6⟩
      rw [go_add, go_add]
      show At (step u K i (go u K i m (step u K i c))) i _ _ _ _
      constructor <;> simp [step.eq_def u K i (go u K i m (step u K i c)), Cfg.setJob, h2.job, h2.time, h2.rng,
        h2.log, hs, h3, h4, h7]
    | false =>
      have s2 : At (step u K i (go u K i m (step u K i c))) i { j' with s := j.s + 1, phase := .sample, priv := p }
          (ray u K j.x j.y (t, r, j.priv)).1 q.1 g := by
        constructor <;> simp [step.eq_def u K i (go u K i m (step u K i c)), Cfg.setJob, h2.job, h2.time, h2.rng,
          h2.log, hs, h3, h4, h7]
      obtain ⟨m', s', j'', k1, k0, k2, k3, k4, k5, k6⟩ := ih n2 (by omega) _ _ _ _ _ s2 rfl hn3
      simp only at k5 k6
      refine ⟨1 + m + 1 + m', s', j'', .next hb hpath hs ?_, by omega, ?_, k3, k4, k5.trans h5, k6.trans h6⟩
      · simp only [h5, h6] at k1; exact k1
      · rw [go_add, go_add, go_add]; exact k2
  · refine ⟨1, (t, r, j.priv), { j with phase := .write }, .full (not_lt.1 hb), by omega, ?_, rfl, rfl, rfl, rfl⟩
    rw [go_succ, go_zero]
    constructor <;> simp [step, Cfg.setJob, h.job, hp, hb, h.time, h.rng, h.log]

/-- The pixels of a tile from the current one on. -/
theorem pixels_go (u : Setup) (K : Kernel Time R P V) (i : Nat) (n : Nat) : ∀ (c : Cfg Time R P V) (j : Job P) (t : Time)
    (r : R) (g : Nat → Nat → List V), At c i j t r g → j.phase = .pixel → Ends u K i n c → j.x ≤ max (x0 u.W u.T i) (x1 u.W u.T i) →
    ∃ s' j' vs, PixelsTo u K (if j.y < y1 u.W u.H u.T i then rasterFrom u i j.x j.y else []) (t, r, j.priv) s' vs ∧
      At (go u K i n c) i j' s'.1 s'.2.1 (fun x y => g x y ++ valuesAt vs x y) := by
  induction n using Nat.strong_induction_on with
  | _ n ih =>
  intro c j t r g h hp hn hxm
  obtain ⟨n1, rfl⟩ := ends_pos u K i n c hn (by rw [h.job, hp]; decide)
  have hn1 := ends_succ u K i n1 c hn
  by_cases hy : j.y < y1 u.W u.H u.T i
  · rw [if_pos hy]
    by_cases hx : j.x < x1 u.W u.T i
    · have s1 : At (step u K i c) i { j with s := 0, phase := .sample, priv := K.startPixel j.priv } t r g := by
        constructor <;> simp [step, Cfg.setJob, h.job, hp, hx, hy, h.time, h.rng, h.log]
      obtain ⟨m, s', j', h1, h0, h2, h3, h4, h5, h6⟩ := samples_go u K i n1 _ _ _ _ _ s1 rfl hn1
      simp only at h5 h6 h1
      obtain ⟨hle, hn2⟩ := ends_sub u K i n1 m _ hn1 (by rw [h2.job, h3]; decide)
      obtain ⟨n2, hn2e⟩ := ends_pos u K i _ _ hn2 (by rw [h2.job, h3]; decide)
      rw [hn2e] at hn2
      have hn3 := ends_succ u K i n2 _ hn2
      have s2 : At (step u K i (go u K i m (step u K i c))) i { j' with x := j.x + 1, phase := .pixel } s'.1 s'.2.1
          (fun x y => if x = j.x ∧ y = j.y then g x y ++ [K.result s'.2.2] else g x y) := by
        constructor <;> simp [step.eq_def u K i (go u K i m (step u K i c)), Cfg.setJob, h2.job, h2.time, h2.rng,
          h2.log, h3, h4, h5, h6]
      obtain ⟨s'', j'', vs, k1, k2⟩ := ih n2 (by omega) _ _ _ _ _ s2 rfl hn3 (by simp only; omega)
      simp only [h6, h4] at k1
      rw [if_pos hy] at k1
      have hr : rasterFrom u i j.x j.y = (j.x, j.y) :: rasterFrom u i (j.x + 1) j.y := by
        unfold rasterFrom
        obtain ⟨d, hd⟩ : ∃ d, x1 u.W u.T i - j.x = d + 1 := ⟨x1 u.W u.T i - j.x - 1, by omega⟩
        rw [hd, List.range'_succ, show x1 u.W u.T i - (j.x + 1) = d by omega]
        rfl
      refine ⟨s'', j'', ((j.x, j.y), K.result s'.2.2) :: vs, ?_, ?_⟩
      · rw [hr]
        exact .cons h1 k1
      · have e : n1 + 1 = 1 + m + 1 + n2 := by omega
        rw [e, go_add, go_add, go_add]
        have hlog : (fun x y => g x y ++ valuesAt (((j.x, j.y), K.result s'.2.2) :: vs) x y) =
            fun x y => (if x = j.x ∧ y = j.y then g x y ++ [K.result s'.2.2] else g x y) ++ valuesAt vs x y := by
          funext x y
          by_cases hxy : x = j.x ∧ y = j.y
          · obtain ⟨rfl, rfl⟩ := hxy
            simp [valuesAt]
          · rw [if_neg hxy]
            have : ¬ (j.x = x ∧ j.y = y) := fun h' => hxy ⟨h'.1.symm, h'.2.symm⟩
            simp [valuesAt, this]
        rw [hlog]; exact k2
    · have s1 : At (step u K i c) i { j with x := x0 u.W u.T i, y := j.y + 1 } t r g := by
        constructor <;> simp [step, Cfg.setJob, h.job, hp, hx, hy, h.time, h.rng, h.log]
      obtain ⟨s', j', vs, k1, k2⟩ := ih n1 (by omega) _ _ _ _ _ s1 hp hn1 (by simp)
      refine ⟨s', j', vs, ?_, by rw [go_succ]; exact k2⟩
      have hr : rasterFrom u i j.x j.y =
          if j.y + 1 < y1 u.W u.H u.T i then rasterFrom u i (x0 u.W u.T i) (j.y + 1) else [] := by
        unfold rasterFrom
        rw [show x1 u.W u.T i - j.x = 0 by omega]
        simp only [List.range'_zero, List.map_nil, List.nil_append]
        split
        · rename_i hy'
          obtain ⟨d, hd⟩ : ∃ d, y1 u.W u.H u.T i - (j.y + 1) = d + 1 := ⟨y1 u.W u.H u.T i - (j.y + 1) - 1, by omega⟩
          rw [hd, List.range'_succ, List.flatMap_cons, show y1 u.W u.H u.T i - (j.y + 1 + 1) = d by omega]
        · rw [show y1 u.W u.H u.T i - (j.y + 1) = 0 by omega]; rfl
      rw [hr]; exact k1
  · rw [if_neg hy]
    have s1 : At (step u K i c) i { j with phase := .done } t r g := by
      constructor <;> simp [step, Cfg.setJob, h.job, hp, hy, h.time, h.rng, h.log]
    refine ⟨(t, r, j.priv), { j with phase := .done }, [], .nil, ?_⟩
    rw [go_succ]
    rw [show go u K i n1 (step u K i c) = step u K i c from run_done u K i n1 _ (by rw [s1.job])]
    constructor
    · exact s1.job
    · exact s1.time
    · exact s1.rng
    · rw [s1.log]; funext x y; simp [valuesAt]

/-- A tile run alone from its start. -/
theorem tile_go (u : Setup) (K : Kernel Time R P V) (i n : Nat) (c : Cfg Time R P V) (t1 : Time) (r1 : R)
    (hj : c.job i = (start u K t1 r1).job i) (hn : Ends u K i n c) :
    ∃ s' vs, PixelsTo u K (raster u i) (c.time, c.rng, K.seed i) s' vs ∧ (go u K i n c).time = s'.1 ∧
      (go u K i n c).rng = s'.2.1 ∧ ∀ x y, (go u K i n c).log x y = c.log x y ++ valuesAt vs x y := by
  obtain ⟨s', j', vs, h1, h2⟩ := pixels_go u K i n c _ c.time c.rng c.log ⟨hj, rfl, rfl, rfl⟩ rfl hn (by simp [start])
  refine ⟨s', vs, ?_, h2.time, h2.rng, fun x y => by rw [h2.log]⟩
  have : raster u i = if y0 u.W u.T i < y1 u.W u.H u.T i then rasterFrom u i (x0 u.W u.T i) (y0 u.W u.T i) else [] := by
    unfold raster rasterFrom
    split
    · rename_i hy
      obtain ⟨d, hd⟩ : ∃ d, y1 u.W u.H u.T i - y0 u.W u.T i = d + 1 := ⟨y1 u.W u.H u.T i - y0 u.W u.T i - 1, by omega⟩
      rw [hd, List.range'_succ, List.flatMap_cons, show y1 u.W u.H u.T i - (y0 u.W u.T i + 1) = d by omega]
    · rw [show y1 u.W u.H u.T i - y0 u.W u.T i = 0 by omega]; rfl
  rw [this]
  exact h1

/-! ### Theorems -/

/-- **C49, what a complete render computes (partial).** Without motion blur, and with no lights (or lights that draw no
random numbers): after every complete execution, under every interleaving, the pixels of a tile hold exactly what the
nested loops compute for that tile alone. Missing for every setting: see `C49_violated_blur`, `C49_violated_lights`. -/
theorem C49_loops_partial (u : Setup) (K : Kernel Time R P V) (t0 : Time) (r0 : R) (sched : List Nat) (hT : 0 < u.T)
    (hb : u.blur = false) (hK : SamplerFree u K) (hs : Complete u K sched (start u K t0 r0)) (i : Nat)
    (hi : i < numTiles u.W u.H u.T) :
    ∃ s' vs, PixelsTo u K (raster u i) (t0, r0, K.seed i) s' vs ∧
      ∀ x y, InTile u.W u.H u.T i x y → (run u K sched (start u K t0 r0)).log x y = valuesAt vs x y := by
  have a := alone u K hT hb hK i sched (start u K t0 r0) (start u K t0 r0) hs.1 (inv_start u K t0 r0 hT)
    ⟨⟨rfl, fun _ _ _ => rfl⟩, Or.inl rfl, by simp [start]⟩
  have d := hs.2 i hi
  rw [a.1.1] at d
  obtain ⟨s', vs, h1, -, -, h4⟩ := tile_go u K i _ (start u K t0 r0) t0 r0 rfl d
  refine ⟨s', vs, h1, fun x y hin => ?_⟩
  rw [a.1.2 x y hin]
  have := h4 x y
  unfold go at this
  rw [this]
  simp [start]

/-- Running blocks of whole tiles, none of which has started. -/
theorem blocks_tiles (u : Setup) (K : Kernel Time R P V) (t1 : Time) (r1 : R) (o : List (Nat × Nat))
    (hnd : (o.map Prod.fst).Nodup) : ∀ c : Cfg Time R P V, (∀ b ∈ o, c.job b.1 = (start u K t1 r1).job b.1) →
    (∀ b ∈ o, ((run u K (blocks o) c).job b.1).phase = .done) →
    ∃ s' vs, TilesTo u K (o.map Prod.fst) (c.time, c.rng) s' vs ∧
      ∀ x y, (run u K (blocks o) c).log x y = c.log x y ++ valuesAt vs x y := by
  induction o with
  | nil =>
    intro c _ _
    exact ⟨_, [], .nil, fun x y => by simp [blocks, run, valuesAt]⟩
  | cons b o ih =>
    intro c hj hd
    obtain ⟨i, n⟩ := b
    simp only [List.map_cons, List.nodup_cons] at hnd
    have he : blocks ((i, n) :: o) = List.replicate n i ++ blocks o := by simp [blocks]
    have hother : ∀ (l : List Nat) (k : Nat) (c : Cfg Time R P V), k ∉ l → (run u K l c).job k = c.job k := by
      intro l k
      induction l with
      | nil => intro c _; rfl
      | cons a t iht =>
        intro c hk
        rw [List.mem_cons, not_or] at hk
        show (run u K t (step u K a c)).job k = c.job k
        rw [iht _ hk.2, step_other u K a k c hk.1]
    have hni : i ∉ blocks o := by
      intro h
      simp only [blocks, List.mem_flatMap, List.mem_replicate] at h
      obtain ⟨b, hb1, hb2⟩ := h
      exact hnd.1 (by rw [hb2.2]; exact List.mem_map_of_mem hb1)
    rw [he, run_append] at hd ⊢
    have hend : Ends u K i n c := by
      have := hd (i, n) (by simp)
      rw [hother _ _ _ hni] at this
      exact this
    obtain ⟨s1, vs, h1, h2, h3, h4⟩ := tile_go u K i n c t1 r1 (hj (i, n) (by simp)) hend
    have hj' : ∀ b ∈ o, (run u K (List.replicate n i) c).job b.1 = (start u K t1 r1).job b.1 := by
      intro b hb
      rw [hother _ _ _ (fun hm => ?_)]
      · exact hj b (by simp [hb])
      · rw [List.mem_replicate] at hm
        exact hnd.1 (by rw [← hm.2]; exact List.mem_map_of_mem hb)
    obtain ⟨s', ws, k1, k2⟩ := ih hnd.2 _ hj' fun b hb => hd b (by simp [hb])
    refine ⟨s', vs ++ ws, ?_, ?_⟩
    · rw [List.map_cons]
      refine .cons h1 ?_
      unfold go at h2 h3
      rw [h2, h3] at k1
      exact k1
    · intro x y
      unfold go at h4
      rw [k2, h4, List.append_assoc]
      simp [valuesAt]

/-- **C49, one worker.** With one worker thread (every tile runs to its end before another starts), for every scene,
with or without motion blur and whatever the lights do: the image is exactly what the nested loops over tiles, pixels,
samples, path vertices and lights compute, the shutter time and the renderer's sampler being handed from tile to tile. -/
theorem C49_one_worker (u : Setup) (K : Kernel Time R P V) (t0 : Time) (r0 : R) (o : List (Nat × Nat))
    (hnd : (o.map Prod.fst).Nodup) (hin : ∀ b ∈ o, b.1 < numTiles u.W u.H u.T)
    (hs : Complete u K (blocks o) (start u K t0 r0)) :
    ∃ s' vs, TilesTo u K (o.map Prod.fst) (t0, r0) s' vs ∧
      ∀ x y, (run u K (blocks o) (start u K t0 r0)).log x y = valuesAt vs x y := by
  obtain ⟨s', vs, h1, h2⟩ := blocks_tiles u K t0 r0 o hnd (start u K t0 r0) (fun _ _ => rfl)
    (fun b hb => hs.2 b.1 (hin b hb))
  exact ⟨s', vs, h1, fun x y => by rw [h2]; simp [start]⟩

/-- The lamp scene of `C49_violated_lights` with one worker: the hypotheses hold. -/
example : (([(0, 200), (1, 20)] : List (Nat × Nat)).map Prod.fst).Nodup ∧
    (∀ b ∈ ([(0, 200), (1, 20)] : List (Nat × Nat)), b.1 < numTiles lampSetup.W lampSetup.H lampSetup.T) ∧
    Complete lampSetup lampKernel (blocks [(0, 200), (1, 20)]) (start lampSetup lampKernel () 0) := by
  decide +kernel

/-- Two lights at a vertex: the first is sampled with the sampler as it is, the second with what the first left. -/
example : allLights { lampSetup with lights := 2 } lampKernel () (5, 0) = (7, 6) := by decide

end Huira.Tiles
