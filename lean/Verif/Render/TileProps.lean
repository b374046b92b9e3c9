import Mathlib.Tactic.Ring
import Mathlib.Tactic.Linarith
import Mathlib.Data.List.Basic
import Verif.Render.TileModel
set_option linter.unusedSimpArgs false
/-!
# C49: every pixel is rendered once, independent of scheduling

The first half holds for every image and every schedule. The second half is false for the code: a tile job reads `time`
and draws from `sampler_`, which other tiles change. It is proved for scenes without motion blur whose lights do not draw
random numbers (in particular scenes without lights: the only light of the library, `SphereLight`, draws two numbers per
sample), for every interleaving; and, with motion blur too, when tiles are not interleaved.
-/
namespace Huira.Tiles

variable {Time R P V : Type}

/-- Specification: pixel (x, y) lies in the rectangle of tile `i`. -/
def InTile (W H T i x y : Nat) : Prop :=
  x0 W T i ≤ x ∧ x < x1 W T i ∧ y0 W T i ≤ y ∧ y < y1 W H T i

theorem lt_tilesAlong {n T a : Nat} (hT : 0 < T) (h : a < n) : a / T < tilesAlong n T := by
  unfold tilesAlong
  have h1 : a / T * T ≤ a := Nat.div_mul_le_self a T
  have h2 : (a / T + 1) ≤ (n + T - 1) / T := by
    rw [Nat.le_div_iff_mul_le hT]
    have : (a / T + 1) * T = a / T * T + T := by ring
    omega
  omega

theorem tile_lt_n {n T k : Nat} (hT : 0 < T) (h : k < tilesAlong n T) : k * T < n := by
  unfold tilesAlong at h
  have h2 : k + 1 ≤ (n + T - 1) / T := h
  rw [Nat.le_div_iff_mul_le hT] at h2
  have : (k + 1) * T = k * T + T := by ring
  omega

theorem inTile_unique {W H T i x y : Nat} (hT : 0 < T) (h : InTile W H T i x y) :
    i = y / T * tilesAlong W T + x / T := by
  obtain ⟨ha, hb, hc, hd⟩ := h
  simp only [x0, y0, x1, y1] at ha hb hc hd
  have hx : x / T = i % tilesAlong W T := by
    apply Nat.div_eq_of_lt_le
    · exact ha
    · have : (i % tilesAlong W T + 1) * T = i % tilesAlong W T * T + T := by ring
      omega
  have hy : y / T = i / tilesAlong W T := by
    apply Nat.div_eq_of_lt_le
    · exact hc
    · have : (i / tilesAlong W T + 1) * T = i / tilesAlong W T * T + T := by ring
      omega
  rw [hx, hy]
  exact (Nat.div_add_mod' i _).symm

theorem inTile_mk {W H T x y : Nat} (hT : 0 < T) (hx : x < W) (hy : y < H) :
    InTile W H T (y / T * tilesAlong W T + x / T) x y := by
  have h1 := lt_tilesAlong hT hx
  have e1 : (y / T * tilesAlong W T + x / T) % tilesAlong W T = x / T := by
    rw [Nat.mul_add_mod_self_right]; exact Nat.mod_eq_of_lt h1
  have e2 : (y / T * tilesAlong W T + x / T) / tilesAlong W T = y / T := by
    have hp : 0 < tilesAlong W T := by omega
    rw [Nat.add_comm, Nat.add_mul_div_right _ _ hp, Nat.div_eq_of_lt h1]; omega
  simp only [InTile, x0, y0, x1, y1, e1, e2]
  have a1 := Nat.div_mul_le_self x T
  have a2 := Nat.div_mul_le_self y T
  have b1 : x < x / T * T + T := by
    have := Nat.div_add_mod' x T; have := Nat.mod_lt x hT; omega
  have b2 : y < y / T * T + T := by
    have := Nat.div_add_mod' y T; have := Nat.mod_lt y hT; omega
  omega

theorem tile_index_lt {W H T x y : Nat} (hT : 0 < T) (hx : x < W) (hy : y < H) :
    y / T * tilesAlong W T + x / T < numTiles W H T := by
  have h1 := lt_tilesAlong hT hx
  have h2 := lt_tilesAlong hT hy
  unfold numTiles
  calc y / T * tilesAlong W T + x / T < y / T * tilesAlong W T + tilesAlong W T := by omega
    _ = (y / T + 1) * tilesAlong W T := by ring
    _ ≤ tilesAlong H T * tilesAlong W T := Nat.mul_le_mul_right _ h2
    _ = _ := Nat.mul_comm _ _

/-- **C49, partition.** Whatever the resolution and the (positive) tile size, every pixel of the image lies in exactly
one tile. -/
theorem C49_partition (W H T x y : Nat) (hT : 0 < T) (hx : x < W) (hy : y < H) :
    ∃ i, (i < numTiles W H T ∧ InTile W H T i x y) ∧ ∀ k, InTile W H T k x y → k = i :=
  ⟨_, ⟨tile_index_lt hT hx hy, inTile_mk hT hx hy⟩, fun _ hk => inTile_unique hT hk⟩

/-- Tiles contain only pixels of the image and are never empty. -/
theorem C49_tiles_in_image (W H T i : Nat) (hT : 0 < T) (hi : i < numTiles W H T) :
    x0 W T i < x1 W T i ∧ x1 W T i ≤ W ∧ y0 W T i < y1 W H T i ∧ y1 W H T i ≤ H := by
  have hpos : 0 < tilesAlong W T := by
    rcases Nat.eq_zero_or_pos (tilesAlong W T) with h | h
    · simp [numTiles, h] at hi
    · exact h
  have a := tile_lt_n (n := W) hT (Nat.mod_lt i hpos)
  have b : i / tilesAlong W T < tilesAlong H T := by
    rw [Nat.div_lt_iff_lt_mul hpos, Nat.mul_comm]; exact hi
  have b' := tile_lt_n (n := H) hT b
  simp only [x0, y0, x1, y1]
  omega

/-- The two tile sizes used by the renderer, on an image that is a multiple of neither. -/
example : numTiles 100 70 16 = 35 ∧ numTiles 100 70 64 = 4 ∧ InTile 100 70 64 3 99 69 := by
  simp [numTiles, tilesAlong, InTile, x0, x1, y0, y1]

/-! ### Every pixel is written exactly once -/

/-- Pixel (x, y) comes before the job's current pixel. -/
def Past (j : Job P) (x y : Nat) : Prop := y < j.y ∨ (y = j.y ∧ x < j.x)

structure JobInv (u : Setup) (i : Nat) (j : Job P) : Prop where
  hx0 : x0 u.W u.T i ≤ j.x
  hx1 : j.x ≤ x1 u.W u.T i
  hy0 : y0 u.W u.T i ≤ j.y
  busy : j.phase ≠ .pixel → j.phase ≠ .done → j.x < x1 u.W u.T i ∧ j.y < y1 u.W u.H u.T i
  fin : j.phase = .done → y1 u.W u.H u.T i ≤ j.y

structure Inv (u : Setup) (c : Cfg Time R P V) : Prop where
  job : ∀ i < numTiles u.W u.H u.T, JobInv u i (c.job i)
  past : ∀ i < numTiles u.W u.H u.T, ∀ x y, InTile u.W u.H u.T i x y → Past (c.job i) x y → (c.log x y).length = 1
  todo : ∀ i < numTiles u.W u.H u.T, ∀ x y, InTile u.W u.H u.T i x y → ¬ Past (c.job i) x y → c.log x y = []
  out : ∀ x y, ¬ (x < u.W ∧ y < u.H) → c.log x y = []

theorem inv_start (u : Setup) (K : Kernel Time R P V) (t0 : Time) (r0 : R) (hT : 0 < u.T) :
    Inv u (start u K t0 r0) := by
  constructor
  · intro i hi
    have h := C49_tiles_in_image u.W u.H u.T i hT hi
    constructor <;> simp [start] <;> omega
  · intro i hi x y hin hp
    obtain ⟨h1, h2, h3, h4⟩ := hin
    simp only [Past, start] at hp
    omega
  · intro i hi x y _ _; rfl
  · intro x y _; rfl

@[simp] theorem setJob_self (c : Cfg Time R P V) (i : Nat) (j : Job P) : (c.setJob i j).job i = j := by
  simp [Cfg.setJob]
@[simp] theorem setJob_other (c : Cfg Time R P V) (i k : Nat) (j : Job P) (h : k ≠ i) :
    (c.setJob i j).job k = c.job k := by simp [Cfg.setJob, h]
@[simp] theorem setJob_log (c : Cfg Time R P V) (i : Nat) (j : Job P) : (c.setJob i j).log = c.log := rfl
@[simp] theorem setJob_time (c : Cfg Time R P V) (i : Nat) (j : Job P) : (c.setJob i j).time = c.time := rfl
@[simp] theorem setJob_rng (c : Cfg Time R P V) (i : Nat) (j : Job P) : (c.setJob i j).rng = c.rng := rfl

/-- What a step does to the other jobs and to the log. -/
theorem step_other (u : Setup) (K : Kernel Time R P V) (i k : Nat) (c : Cfg Time R P V) (h : k ≠ i) :
    (step u K i c).job k = c.job k := by
  unfold step
  simp only []
  repeat' split
  all_goals simp [h]

theorem step_log (u : Setup) (K : Kernel Time R P V) (i : Nat) (c : Cfg Time R P V) (x y : Nat) :
    (step u K i c).log x y =
      if (c.job i).phase = .write ∧ x = (c.job i).x ∧ y = (c.job i).y then c.log x y ++ [K.result (c.job i).priv]
      else c.log x y := by
  unfold step
  simp only []
  repeat' split
  all_goals simp_all

/-- How a step moves job `i` over the pixels. -/
theorem step_pos (u : Setup) (K : Kernel Time R P V) (i : Nat) (c : Cfg Time R P V) :
    let j := c.job i
    let j' := (step u K i c).job i
    (j.phase = .write ∧ j'.x = j.x + 1 ∧ j'.y = j.y ∧ j'.phase = .pixel) ∨
    (j.phase = .pixel ∧ j.y < y1 u.W u.H u.T i ∧ ¬ j.x < x1 u.W u.T i ∧ j'.x = x0 u.W u.T i ∧ j'.y = j.y + 1 ∧
      j'.phase = .pixel) ∨
    (j.phase = .pixel ∧ ¬ j.y < y1 u.W u.H u.T i ∧ j'.x = j.x ∧ j'.y = j.y ∧ j'.phase = .done) ∨
    (j.phase = .pixel ∧ j.y < y1 u.W u.H u.T i ∧ j.x < x1 u.W u.T i ∧ j'.x = j.x ∧ j'.y = j.y ∧ j'.phase = .sample) ∨
    (j.phase = .done ∧ j'.x = j.x ∧ j'.y = j.y ∧ j'.phase = .done) ∨
    (j.phase ≠ .pixel ∧ j.phase ≠ .done ∧ j'.x = j.x ∧ j'.y = j.y ∧ j'.phase ≠ .pixel ∧ j'.phase ≠ .done) := by
  simp only []
  unfold step
  simp only []
  repeat' split
  all_goals simp_all

theorem inv_step (u : Setup) (K : Kernel Time R P V) (i : Nat) (c : Cfg Time R P V) (hT : 0 < u.T)
    (hi : i < numTiles u.W u.H u.T) (h : Inv u c) : Inv u (step u K i c) := by
  have ht := C49_tiles_in_image u.W u.H u.T i hT hi
  have hj := h.job i hi
  have hpos := step_pos u K i c
  simp only [] at hpos
  have hown : (c.job i).phase = .write → InTile u.W u.H u.T i (c.job i).x (c.job i).y := by
    intro hw
    have := hj.busy (by rw [hw]; decide) (by rw [hw]; decide)
    exact ⟨hj.hx0, this.1, hj.hy0, this.2⟩
  constructor
  · intro k hk
    by_cases hki : k = i
    · subst hki
      have a1 := hj.hx0; have a2 := hj.hx1; have a3 := hj.hy0; have a4 := hj.busy; have a5 := hj.fin
      rcases hpos with ⟨p, q, r, s⟩ | ⟨p, q, r, s, t, w⟩ | ⟨p, q, r, s, t⟩ | ⟨p, q, r, s, t, w⟩ | ⟨p, q, r, s⟩ |
        ⟨p, q, r, s, t, w⟩
      · have := a4 (by rw [p]; decide) (by rw [p]; decide)
        constructor <;> simp_all <;> omega
      · constructor <;> simp_all <;> omega
      · constructor <;> simp_all
      · constructor <;> simp_all
      · constructor <;> simp_all
      · have := a4 p q
        constructor <;> simp_all
    · rw [step_other u K i k c hki]; exact h.job k hk
  · intro k hk x y hin hp
    rw [step_log]
    by_cases hki : k = i
    · subst hki
      obtain ⟨b1, b2, b3, b4⟩ := hin
      have hold : ∀ {x y}, InTile u.W u.H u.T k x y → Past (c.job k) x y → (c.log x y).length = 1 := h.past k hk _ _
      have hnew : ∀ {x y}, InTile u.W u.H u.T k x y → ¬ Past (c.job k) x y → c.log x y = [] := h.todo k hk _ _
      have hin : InTile u.W u.H u.T k x y := ⟨b1, b2, b3, b4⟩
      split
      · rename_i hc
        have hn : ¬ Past (c.job k) x y := by simp only [Past]; omega
        rw [hnew hin hn]; rfl
      · rename_i hc
        apply hold hin
        simp only [Past] at hp ⊢
        have a2 := hj.hx1
        rcases hpos with ⟨p, q, r, s⟩ | ⟨p, q, r, s, t, w⟩ | ⟨p, q, r, s, t⟩ | ⟨p, q, r, s, t, w⟩ | ⟨p, q, r, s⟩ |
          ⟨p, q, r, s, t, w⟩
        · rw [q, r] at hp
          have : ¬ (x = (c.job k).x ∧ y = (c.job k).y) := fun e => hc ⟨p, e.1, e.2⟩
          omega
        all_goals simp_all
        all_goals omega
    · have hne : ¬ ((c.job i).phase = .write ∧ x = (c.job i).x ∧ y = (c.job i).y) := by
        rintro ⟨e1, e2, e3⟩
        have := hown e1
        rw [← e2, ← e3] at this
        exact hki ((inTile_unique hT hin).trans (inTile_unique hT this).symm)
      rw [if_neg hne]
      rw [step_other u K i k c hki] at hp
      exact h.past k hk x y hin hp
  · intro k hk x y hin hp
    rw [step_log]
    by_cases hki : k = i
    · subst hki
      obtain ⟨b1, b2, b3, b4⟩ := hin
      have hin : InTile u.W u.H u.T k x y := ⟨b1, b2, b3, b4⟩
      simp only [Past] at hp
      split
      · rename_i hc
        exfalso
        apply hp
        rcases hpos with ⟨p, q, r, s⟩ | ⟨p, q, r, s, t, w⟩ | ⟨p, q, r, s, t⟩ | ⟨p, q, r, s, t, w⟩ | ⟨p, q, r, s⟩ |
          ⟨p, q, r, s, t, w⟩
        · rw [q, r]; omega
        all_goals simp_all
        have hb := hj.busy (by rw [hc.1]; decide) (by rw [hc.1]; decide)
        unfold step at r s t w
        simp only [hc.1] at t
        simp at t
      · apply h.todo k hk x y hin
        intro hpast
        apply hp
        simp only [Past] at hpast
        rcases hpos with ⟨p, q, r, s⟩ | ⟨p, q, r, s, t, w⟩ | ⟨p, q, r, s, t⟩ | ⟨p, q, r, s, t, w⟩ | ⟨p, q, r, s⟩ |
          ⟨p, q, r, s, t, w⟩
        all_goals simp_all
        all_goals omega
    · have hne : ¬ ((c.job i).phase = .write ∧ x = (c.job i).x ∧ y = (c.job i).y) := by
        rintro ⟨e1, e2, e3⟩
        have := hown e1
        rw [← e2, ← e3] at this
        exact hki ((inTile_unique hT hin).trans (inTile_unique hT this).symm)
      rw [if_neg hne]
      rw [step_other u K i k c hki] at hp
      exact h.todo k hk x y hin hp
  · intro x y hxy
    rw [step_log, if_neg, h.out x y hxy]
    rintro ⟨e1, e2, e3⟩
    have := hown e1
    rw [← e2, ← e3] at this
    obtain ⟨b1, b2, b3, b4⟩ := this
    omega

theorem inv_run (u : Setup) (K : Kernel Time R P V) (hT : 0 < u.T) (sched : List Nat) (c : Cfg Time R P V)
    (hs : ∀ i ∈ sched, i < numTiles u.W u.H u.T) (h : Inv u c) : Inv u (run u K sched c) := by
  induction sched generalizing c with
  | nil => exact h
  | cons a t ih =>
    exact ih _ (fun i hi => hs i (List.mem_cons_of_mem _ hi)) (inv_step u K a c hT (hs a (List.mem_cons_self ..)) h)

/-- **C49, rendered once.** In every complete execution, whatever the interleaving, the kernel, the number of lights and
motion blur, every pixel of the image is written exactly once, and nothing else is written. -/
theorem C49_written_once (u : Setup) (K : Kernel Time R P V) (t0 : Time) (r0 : R) (sched : List Nat) (hT : 0 < u.T)
    (hc : Complete u K sched (start u K t0 r0)) (x y : Nat) :
    ((run u K sched (start u K t0 r0)).log x y).length = if x < u.W ∧ y < u.H then 1 else 0 := by
  have hinv := inv_run u K hT sched _ hc.1 (inv_start u K t0 r0 hT)
  split
  · rename_i h
    obtain ⟨i, ⟨hi, hin⟩, _⟩ := C49_partition u.W u.H u.T x y hT h.1 h.2
    apply hinv.past i hi x y hin
    have := (hinv.job i hi).fin (hc.2 i hi)
    left
    obtain ⟨_, _, _, b4⟩ := hin
    omega
  · rename_i h
    rw [hinv.out x y h]; rfl

/-! ### Schedules -/

/-- The view tile `i` has of a configuration, apart from shared variables. -/
def SameTile (u : Setup) (i : Nat) (c c' : Cfg Time R P V) : Prop :=
  c.job i = c'.job i ∧ ∀ x y, InTile u.W u.H u.T i x y → c.log x y = c'.log x y

theorem sameTile_step_other (u : Setup) (K : Kernel Time R P V) (i k : Nat) (c : Cfg Time R P V) (hT : 0 < u.T)
    (hk : k < numTiles u.W u.H u.T) (hki : k ≠ i) (h : Inv u c) : SameTile u i (step u K k c) c := by
  refine ⟨step_other u K k i c hki.symm, fun x y hin => ?_⟩
  rw [step_log, if_neg]
  rintro ⟨e1, e2, e3⟩
  have hj := h.job k hk
  have hb := hj.busy (by rw [e1]; decide) (by rw [e1]; decide)
  have : InTile u.W u.H u.T k x y := by rw [e2, e3]; exact ⟨hj.hx0, hb.1, hj.hy0, hb.2⟩
  exact hki ((inTile_unique hT this).trans (inTile_unique hT hin).symm)

/-- The lights of the scene do not use the renderer's sampler; true in particular when there are no lights. -/
def SamplerFree (u : Setup) (K : Kernel Time R P V) : Prop :=
  ∀ l < u.lights, ∀ r r' p, (K.lightSample l r p).2 = (K.lightSample l r' p).2

/-- A phase in which the job no longer depends on the value of `time` left by others when there is motion blur. -/
def Fresh (ph : Phase) : Prop := ph = .pixel ∨ ph = .sample ∨ ph = .write ∨ ph = .done

/-- Two configurations look the same to tile `i`: same job and pixels, and same time if it may still be read. -/
def Agree (u : Setup) (i : Nat) (c c' : Cfg Time R P V) : Prop :=
  SameTile u i c c' ∧ (c.time = c'.time ∨ (u.blur = true ∧ Fresh (c.job i).phase)) ∧
    ((c.job i).phase = .lightSample → (c.job i).light < u.lights)

theorem agree_step (u : Setup) (K : Kernel Time R P V) (i : Nat) (c c' : Cfg Time R P V) (hK : SamplerFree u K)
    (h : Agree u i c c') : Agree u i (step u K i c) (step u K i c') := by
  obtain ⟨⟨hj, hl⟩, ht, hlt⟩ := h
  have hlog : ∀ x y, InTile u.W u.H u.T i x y → (step u K i c).log x y = (step u K i c').log x y := by
    intro x y hin
    rw [step_log, step_log, hj, hl x y hin]
  refine ⟨⟨?_, hlog⟩, ?_, ?_⟩
  · rcases ht with ht | ⟨_, hf⟩
    · by_cases hph : (c.job i).phase = .lightSample
      · have hr : (K.lightSample (c.job i).light c.rng (c.job i).priv).2 =
          (K.lightSample (c.job i).light c'.rng (c.job i).priv).2 := hK _ (hlt hph) ..
        unfold step
        simp only [← hj, ← ht, hph]
        simp [hr]
      · unfold step
        simp only [← hj, ← ht]
        repeat' split
        all_goals simp_all
    · unfold step
      simp only [← hj]
      rcases hf with hf | hf | hf | hf <;> rw [hf] <;> simp only []
      all_goals repeat' split
      all_goals simp_all
  · rcases ht with ht | ⟨hb, hf⟩
    · left
      unfold step
      simp only [← hj, ← ht]
      repeat' split
      all_goals simp_all
    · unfold step
      simp only [← hj]
      rcases hf with hf | hf | hf | hf <;> rw [hf] <;> simp only []
      all_goals repeat' split
      all_goals simp_all [Fresh]
  · unfold step
    simp only []
    repeat' split
    all_goals simp_all

theorem run_append (u : Setup) (K : Kernel Time R P V) (a b : List Nat) (c : Cfg Time R P V) :
    run u K (a ++ b) c = run u K b (run u K a c) := by
  induction a generalizing c with
  | nil => rfl
  | cons i a ih => exact ih _

theorem step_done (u : Setup) (K : Kernel Time R P V) (i : Nat) (c : Cfg Time R P V)
    (h : (c.job i).phase = .done) : step u K i c = c := by
  unfold step; simp only [h]

theorem run_done (u : Setup) (K : Kernel Time R P V) (i n : Nat) (c : Cfg Time R P V)
    (h : (c.job i).phase = .done) : run u K (List.replicate n i) c = c := by
  induction n with
  | zero => rfl
  | succ n ih => rw [List.replicate_succ]; show run u K _ (step u K i c) = c; rw [step_done u K i c h, ih]

theorem agree_run_self (u : Setup) (K : Kernel Time R P V) (i n : Nat) (c c' : Cfg Time R P V) (hK : SamplerFree u K)
    (h : Agree u i c c') : Agree u i (run u K (List.replicate n i) c) (run u K (List.replicate n i) c') := by
  induction n generalizing c c' with
  | zero => exact h
  | succ n ih => rw [List.replicate_succ]; exact ih _ _ (agree_step u K i c c' hK h)

theorem time_const (u : Setup) (K : Kernel Time R P V) (i : Nat) (c : Cfg Time R P V) (hb : u.blur = false) :
    (step u K i c).time = c.time := by
  unfold step
  simp only []
  repeat' split
  all_goals simp_all

/-- Without motion blur, what a tile ends up with is what it computes when run alone. -/
theorem alone (u : Setup) (K : Kernel Time R P V) (hT : 0 < u.T) (hb : u.blur = false) (hK : SamplerFree u K) (i : Nat)
    (sched : List Nat) (c c' : Cfg Time R P V) (hs : ∀ k ∈ sched, k < numTiles u.W u.H u.T) (hinv : Inv u c)
    (h : Agree u i c c') : Agree u i (run u K sched c) (run u K (List.replicate (sched.count i) i) c') := by
  induction sched generalizing c c' with
  | nil => simpa [run] using h
  | cons a t ih =>
    have ha := hs a (List.mem_cons_self ..)
    have ht : ∀ k ∈ t, k < numTiles u.W u.H u.T := fun k hk => hs k (List.mem_cons_of_mem _ hk)
    by_cases hai : a = i
    · subst hai
      rw [List.count_cons_self, List.replicate_succ]
      exact ih _ _ ht (inv_step u K a c hT ha hinv) (agree_step u K a c c' hK h)
    · rw [List.count_cons_of_ne hai]
      apply ih _ _ ht (inv_step u K a c hT ha hinv)
      have hst := sameTile_step_other u K i a c hT ha hai hinv
      refine ⟨⟨hst.1.trans h.1.1, fun x y hin => (hst.2 x y hin).trans (h.1.2 x y hin)⟩, ?_, by
        rw [hst.1]; exact h.2.2⟩
      rw [time_const u K a c hb]
      rcases h.2.1 with h2 | h2
      · exact Or.inl h2
      · rw [hb] at h2; simp at h2

/-- Two runs of one tile alone that both end, end in the same pixels. -/
theorem alone_unique (u : Setup) (K : Kernel Time R P V) (i n m : Nat) (c : Cfg Time R P V)
    (hn : ((run u K (List.replicate n i) c).job i).phase = .done)
    (hm : ((run u K (List.replicate m i) c).job i).phase = .done) :
    run u K (List.replicate n i) c = run u K (List.replicate m i) c := by
  rcases Nat.le_total n m with h | h
  · obtain ⟨d, rfl⟩ := Nat.exists_eq_add_of_le h
    rw [List.replicate_add, run_append, run_done u K i d _ hn]
  · obtain ⟨d, rfl⟩ := Nat.exists_eq_add_of_le h
    rw [List.replicate_add, run_append, run_done u K i d _ hm]

/-- The property at full strength: the pixels do not depend on the schedule. -/
def C49_full : Prop :=
  ∀ (Time R P V : Type) (u : Setup) (K : Kernel Time R P V) (t0 : Time) (r0 : R) (s s' : List Nat), 0 < u.T →
    Complete u K s (start u K t0 r0) → Complete u K s' (start u K t0 r0) →
    ∀ x y, (run u K s (start u K t0 r0)).log x y = (run u K s' (start u K t0 r0)).log x y

/-- **C49, partial.** Without motion blur, and with no lights (or lights that draw no random numbers), every two complete executions
give the same image, for every interleaving of the tiles' steps and whatever the state of the renderer's sampler (so a
second render with the same renderer gives the same image too). Missing for the full property: motion blur, and lights
that draw from the renderer's sampler; see `C49_violated_blur` and `C49_violated_lights`. -/
theorem C49_schedule_independent_partial (u : Setup) (K : Kernel Time R P V) (t0 : Time) (r0 r0' : R)
    (s s' : List Nat) (hT : 0 < u.T) (hb : u.blur = false) (hK : SamplerFree u K)
    (hs : Complete u K s (start u K t0 r0)) (hs' : Complete u K s' (start u K t0 r0')) (x y : Nat) :
    (run u K s (start u K t0 r0)).log x y = (run u K s' (start u K t0 r0')).log x y := by
  have inv1 := inv_start u K t0 r0 hT
  have inv2 := inv_start u K t0 r0' hT
  by_cases hxy : x < u.W ∧ y < u.H
  · obtain ⟨i, ⟨hi, hin⟩, _⟩ := C49_partition u.W u.H u.T x y hT hxy.1 hxy.2
    have a1 := alone u K hT hb hK i s (start u K t0 r0) (start u K t0 r0) hs.1 inv1
      ⟨⟨rfl, fun _ _ _ => rfl⟩, Or.inl rfl, by simp [start]⟩
    have a2 := alone u K hT hb hK i s' (start u K t0 r0') (start u K t0 r0) hs'.1 inv2
      ⟨⟨rfl, fun _ _ _ => rfl⟩, Or.inl rfl, by simp [start]⟩
    have d1 := hs.2 i hi
    have d2 := hs'.2 i hi
    rw [a1.1.1] at d1
    rw [a2.1.1] at d2
    rw [a1.1.2 x y hin, a2.1.2 x y hin, alone_unique u K i _ _ _ d1 d2]
  · rw [(inv_run u K hT s _ hs.1 inv1).out x y hxy, (inv_run u K hT s' _ hs'.1 inv2).out x y hxy]

/-- The same for a scene without lights and without motion blur (an emissive or environment-lit scene): the image depends
on nothing but the scene. -/
theorem C49_no_lights_partial (u : Setup) (K : Kernel Time R P V) (t0 : Time) (r0 r0' : R)
    (s s' : List Nat) (hT : 0 < u.T) (hb : u.blur = false) (hl : u.lights = 0)
    (hs : Complete u K s (start u K t0 r0)) (hs' : Complete u K s' (start u K t0 r0')) (x y : Nat) :
    (run u K s (start u K t0 r0)).log x y = (run u K s' (start u K t0 r0')).log x y :=
  C49_schedule_independent_partial u K t0 r0 r0' s s' hT hb (fun l h => by omega) hs hs' x y

/-- A schedule in which tiles are not interleaved: for each (tile, number of steps) in turn. -/
def blocks (o : List (Nat × Nat)) : List Nat := o.flatMap fun b => List.replicate b.2 b.1

theorem sameTile_run_other (u : Setup) (K : Kernel Time R P V) (i : Nat) (hT : 0 < u.T) (s : List Nat)
    (c : Cfg Time R P V) (hs : ∀ k ∈ s, k < numTiles u.W u.H u.T) (hni : i ∉ s) (h : Inv u c) :
    SameTile u i (run u K s c) c := by
  induction s generalizing c with
  | nil => exact ⟨rfl, fun _ _ _ => rfl⟩
  | cons a t ih =>
    have ha := hs a (List.mem_cons_self ..)
    have hai : a ≠ i := fun e => hni (by rw [e]; exact List.mem_cons_self ..)
    have h1 := ih _ (fun k hk => hs k (List.mem_cons_of_mem _ hk)) (fun hm => hni (List.mem_cons_of_mem _ hm))
      (inv_step u K a c hT ha h)
    have h2 := sameTile_step_other u K i a c hT ha hai h
    exact ⟨h1.1.trans h2.1, fun x y hin => (h1.2 x y hin).trans (h2.2 x y hin)⟩

theorem blocks_alone (u : Setup) (K : Kernel Time R P V) (t0 : Time) (r0 r1 : R) (hT : 0 < u.T) (hK : SamplerFree u K)
    (o : List (Nat × Nat)) (hnd : (o.map Prod.fst).Nodup) (hs : Complete u K (blocks o) (start u K t0 r0)) (i : Nat)
    (hi : i < numTiles u.W u.H u.T) :
    ∃ n, SameTile u i (run u K (blocks o) (start u K t0 r0)) (run u K (List.replicate n i) (start u K t0 r1)) := by
  have hinv := inv_start u K t0 r0 hT
  by_cases hm : i ∈ o.map Prod.fst
  · obtain ⟨⟨i', n⟩, hb, rfl⟩ := List.mem_map.1 hm
    obtain ⟨pre, post, rfl⟩ := List.append_of_mem hb
    simp only [List.map_append, List.map_cons] at hnd
    have hpre : i' ∉ blocks pre := by
      intro h
      simp only [blocks, List.mem_flatMap, List.mem_replicate] at h
      obtain ⟨b, hb1, hb2⟩ := h
      have := List.nodup_append.1 hnd
      exact this.2.2 b.1 (List.mem_map_of_mem hb1) i' (List.mem_cons_self ..) hb2.2.symm
    have hpost : i' ∉ blocks post := by
      intro h
      simp only [blocks, List.mem_flatMap, List.mem_replicate] at h
      obtain ⟨b, hb1, hb2⟩ := h
      have := (List.nodup_cons.1 (List.nodup_append.1 hnd).2.1).1
      exact this (by rw [hb2.2]; exact List.mem_map_of_mem hb1)
    have he : blocks (pre ++ (i', n) :: post) = blocks pre ++ (List.replicate n i' ++ blocks post) := by
      simp [blocks]
    have hall := hs.1
    rw [he] at hall
    have q1 := sameTile_run_other u K i' hT (blocks pre) _ (fun k hk => hall k (by simp [hk])) hpre hinv
    have inv1 := inv_run u K hT (blocks pre) _ (fun k hk => hall k (by simp [hk])) hinv
    have inv2 := inv_run u K hT (List.replicate n i') _ (fun k hk => hall k (by simp [hk])) inv1
    have q3 := sameTile_run_other u K i' hT (blocks post) _ (fun k hk => hall k (by simp [hk])) hpost inv2
    refine ⟨n, ?_⟩
    rw [he, run_append, run_append]
    have ag : Agree u i' (run u K (blocks pre) (start u K t0 r0)) (start u K t0 r1) := by
      refine ⟨⟨q1.1.trans rfl, fun x y hin => (q1.2 x y hin).trans rfl⟩, ?_, by rw [q1.1]; simp [start]⟩
      by_cases hbl : u.blur = true
      · refine Or.inr ⟨hbl, ?_⟩
        rw [q1.1]; exact Or.inl rfl
      · left
        have hbl : u.blur = false := by simpa using hbl
        have : ∀ (s : List Nat) (c : Cfg Time R P V), (run u K s c).time = c.time := by
          intro s
          induction s with
          | nil => intro c; rfl
          | cons a t ih => intro c; show (run u K t (step u K a c)).time = c.time; rw [ih, time_const u K a c hbl]
        rw [this]; rfl
    have q2 := (agree_run_self u K i' n _ _ hK ag).1
    exact ⟨q3.1.trans q2.1, fun x y hin => (q3.2 x y hin).trans (q2.2 x y hin)⟩
  · refine ⟨0, ?_⟩
    have hni : i ∉ blocks o := by
      intro h
      simp only [blocks, List.mem_flatMap, List.mem_replicate] at h
      obtain ⟨b, hb1, hb2⟩ := h
      exact hm (by rw [hb2.2]; exact List.mem_map_of_mem hb1)
    have := sameTile_run_other u K i hT (blocks o) _ hs.1 hni hinv
    exact ⟨this.1.trans rfl, fun x y hin => (this.2 x y hin).trans rfl⟩

/-- **C49, partial (one worker).** When tiles are not interleaved (each tile's job runs to its end before another
starts, as with a single worker thread), the image does not depend on the order of the tiles, with or without motion
blur, with no lights (or lights that draw no random
numbers). -/
theorem C49_tile_order_partial (u : Setup) (K : Kernel Time R P V) (t0 : Time) (r0 r0' : R) (o o' : List (Nat × Nat))
    (hT : 0 < u.T) (hK : SamplerFree u K) (hnd : (o.map Prod.fst).Nodup) (hnd' : (o'.map Prod.fst).Nodup)
    (hs : Complete u K (blocks o) (start u K t0 r0)) (hs' : Complete u K (blocks o') (start u K t0 r0'))
    (x y : Nat) :
    (run u K (blocks o) (start u K t0 r0)).log x y = (run u K (blocks o') (start u K t0 r0')).log x y := by
  have inv1 := inv_start u K t0 r0 hT
  have inv2 := inv_start u K t0 r0' hT
  by_cases hxy : x < u.W ∧ y < u.H
  · obtain ⟨i, ⟨hi, hin⟩, _⟩ := C49_partition u.W u.H u.T x y hT hxy.1 hxy.2
    obtain ⟨n, a1⟩ := blocks_alone u K t0 r0 r0 hT hK o hnd hs i hi
    obtain ⟨m, a2⟩ := blocks_alone u K t0 r0' r0 hT hK o' hnd' hs' i hi
    have d1 := hs.2 i hi
    have d2 := hs'.2 i hi
    rw [a1.1] at d1
    rw [a2.1] at d2
    rw [a1.2 x y hin, a2.2 x y hin, alone_unique u K i _ _ _ d1 d2]
  · rw [(inv_run u K hT _ _ hs.1 inv1).out x y hxy, (inv_run u K hT _ _ hs'.1 inv2).out x y hxy]

/-! ### The code violates the full property -/

/-- A scene with one surface and one light that draws a number from the renderer's sampler (here a counter); the pixel
shows the number drawn. -/
def lampKernel : Kernel Unit Nat Nat Nat where
  seed _ := 0
  startPixel p := p
  jitter _ _ p := p
  drawTime p := ((), p)
  intersect _ _ p := (.surface, p)
  hitLight _ _ p := p
  lightTransform _ _ p := p
  lightSample _ r _ := (r + 1, r)
  lightShade _ _ p := p
  scatterVolume p := p
  scatter _ p := (false, p)
  accumulate _ p := (true, p)
  result p := p

/-- A 17 x 1 image: two tiles of the path tracer's size 16. -/
def lampSetup : Setup := { W := 17, H := 1, T := 16, spp := 1, maxBounces := 1, lights := 1, blur := false }

/-- **C49, violated by lights that draw random numbers.** Rendering tile 1 before tile 0, without any interleaving,
changes pixel (0, 0): light sampling uses the renderer's sampler, not the tile's. -/
theorem C49_violated_lights : ¬ C49_full := by
  intro h
  have hc : ∀ o ∈ [[(0, 200), (1, 20)], [(1, 20), (0, 200)]],
      Complete lampSetup lampKernel (blocks o) (start lampSetup lampKernel () 0) := by decide +kernel
  have := h _ _ _ _ lampSetup lampKernel () 0 (blocks [(0, 200), (1, 20)]) (blocks [(1, 20), (0, 200)]) (by decide)
    (hc _ (by simp)) (hc _ (by simp)) 0 0
  exact absurd this (by decide +kernel)

/-- A scene with motion blur and no lights; the pixel shows the shutter time its camera ray was traced at. Each tile's
private sampler yields its own time. -/
def blurKernel : Kernel Nat Unit (Nat × Nat) Nat where
  seed i := (i + 1, 0)
  startPixel p := p
  jitter _ _ p := p
  drawTime p := (p.1, p)
  intersect _ t p := (.miss, (p.1, t))
  hitLight _ _ p := p
  lightTransform _ _ p := p
  lightSample _ r p := (r, p)
  lightShade _ _ p := p
  scatterVolume p := p
  scatter _ p := (false, p)
  accumulate _ p := (true, p)
  result p := p.2

def blurSetup : Setup := { W := 17, H := 1, T := 16, spp := 1, maxBounces := 1, lights := 0, blur := true }

/-- **C49, violated by motion blur.** Even with no lights, when tile 1 draws its time between tile 0 drawing its own and
tracing its ray, tile 0 traces at tile 1's time. -/
theorem C49_violated_blur : ¬ C49_full := by
  intro h
  have hc : ∀ s ∈ [blocks [(0, 200), (1, 20)], blocks [(0, 2), (1, 2), (0, 200), (1, 20)]],
      Complete blurSetup blurKernel s (start blurSetup blurKernel 0 ()) := by decide +kernel
  have := h _ _ _ _ blurSetup blurKernel 0 () (blocks [(0, 200), (1, 20)])
    (blocks [(0, 2), (1, 2), (0, 200), (1, 20)]) (by decide) (hc _ (by simp)) (hc _ (by simp)) 0 0
  exact absurd this (by decide +kernel)

/-- The kernel of the blur scene satisfies the hypothesis of the partial theorems, and without blur (the shutter time
stays 0) an interleaved schedule is complete. -/
example : SamplerFree blurSetup blurKernel ∧ ∀ s ∈ [blocks [(0, 200), (1, 20)], blocks [(0, 2), (1, 2), (0, 200), (1, 20)]],
    Complete { blurSetup with blur := false } blurKernel s (start { blurSetup with blur := false } blurKernel 0 ()) :=
  ⟨fun _ _ _ _ _ => rfl, by decide +kernel⟩

/-- With blur, two orders of whole tiles, both complete. -/
example : ∀ o ∈ [[(0, 200), (1, 20)], [(1, 20), (0, 200)]], (o.map Prod.fst).Nodup ∧
    Complete blurSetup blurKernel (blocks o) (start blurSetup blurKernel 0 ()) := by decide +kernel

end Huira.Tiles
