/-!
# Tiled rendering and its schedules

Models `Renderer::path_trace_` of `include/huira_impl/render/renderer.ipp` (lines 119-576): the partition of the image
into tiles, the control flow of one tile's job, and the interleaved execution of the jobs by `tbb::parallel_for`.

What a tile job shares with the other jobs is explicit: `float time` is one variable declared outside the parallel loop
and captured by reference (lines 140 and 143), and light sampling draws from the renderer's own sampler `this->sampler_`
(lines 235, 394). Everything else a job touches (its `RandomSampler sampler(tile_idx)`, the ray, throughput,
accumulators) is private, and is an abstract type `P` with abstract operations (`Kernel`).

Simplifications: a shared access is one atomic step (the code's unsynchronised accesses to `time` and `sampler_` are data
races, so the real program has at least these interleavings); the private computation between two shared accesses is
one step; when a light yields no sample the job still performs the (ineffective) read of `time` that follows.
-/
namespace Huira.Tiles

/-! ## Geometry of the tiles -/

/-- Number of tiles along an axis of `n` pixels: `(n + TILE_SIZE - 1) / TILE_SIZE` (lines 137-138, 729-730). -/
def tilesAlong (n T : Nat) : Nat := (n + T - 1) / T

/-- `num_tiles` (lines 139, 731). -/
def numTiles (W H T : Nat) : Nat := tilesAlong W T * tilesAlong H T

/-- First column of a tile, lines 146, 148: `tile_x = tile_idx % tiles_x`, `x0 = tile_x * TILE_SIZE`. -/
def x0 (W T i : Nat) : Nat := i % tilesAlong W T * T
/-- First row, lines 145, 149. -/
def y0 (W T i : Nat) : Nat := i / tilesAlong W T * T
/-- One past the last column, line 150. -/
def x1 (W T i : Nat) : Nat := min (x0 W T i + T) W
/-- One past the last row, line 151. -/
def y1 (W H T i : Nat) : Nat := min (y0 W T i + T) H

/-! ## One tile's job -/

/-- What a ray segment met (lines 199-338). -/
inductive Outcome where
  /-- scattered in the medium before the next surface (lines 217-272) -/
  | volume
  /-- left the scene: environment map, path ends (lines 287-304) -/
  | miss
  /-- hit a light: path ends (lines 308-338) -/
  | light
  /-- passed through a partly transparent surface; `bounce--` then `++bounce` (lines 354-371) -/
  | pass
  /-- a surface to be shaded -/
  | surface
deriving DecidableEq

/-- The private operations of a tile job. `Time` is the type of the shutter time, `R` of the state of the renderer's
sampler, `P` of a job's private data, `V` of the value written to a pixel. -/
structure Kernel (Time R P V : Type) where
  /-- `RandomSampler<float> sampler(tile_idx)`, line 154 -/
  seed : Nat → P
  /-- accumulators of a pixel, lines 159-171 -/
  startPixel : P → P
  /-- sub-pixel jitter and `cast_ray`, lines 175-180, and the per-path variables, lines 187-197 -/
  jitter : Nat → Nat → P → P
  /-- `sampler.get_1d()`, line 184 -/
  drawTime : P → Time × P
  /-- `scene_view.intersect(ray, time)` and the decisions up to shading, lines 199-223, 285, 306-308, 345-371 -/
  intersect : Nat → Time → P → Outcome × P
  /-- emission of a light that was hit, lines 311-338; the time is read only after the first bounce -/
  hitLight : Nat → Time → P → P
  /-- `interpolate_transform(light_instance.transforms, time)`, lines 231-233 and 390-391 -/
  lightTransform : Nat → Time → P → P
  /-- `sample_li(isect, current_transform, this->sampler_)`, lines 235-236 and 393-394 -/
  lightSample : Nat → R → P → R × P
  /-- shadow ray `evaluate_transmittance(…, time)` and the contribution, lines 243-264 and 400-444 -/
  lightShade : Nat → Time → P → P
  /-- phase-function sampling, lines 267-277 -/
  scatterVolume : P → P
  /-- BSDF sampling and Russian roulette, lines 447-481; `false` ends the path -/
  scatter : Nat → P → Bool × P
  /-- clamp, NaN test, accumulation, early exit, lines 484-522; `true` ends the pixel -/
  accumulate : Nat → P → Bool × P
  /-- value written to the frame buffer, lines 524-571 -/
  result : P → V

/-- Where a tile job stands between two atomic steps. -/
inductive Phase where
  | pixel | sample | bounce | hitLight | lightTransform | lightSample | lightShade | scatter | accumulate | write | done
deriving DecidableEq

/-- State of a tile job: loop counters of lines 156-198 and 229/388, the phase, and the private data. -/
structure Job (P : Type) where
  x : Nat
  y : Nat
  s : Nat
  bounce : Nat
  light : Nat
  volume : Bool
  phase : Phase
  priv : P

/-- Parameters of a render: image size, tile size, `spp_`, `max_bounces_`, the number of lights, motion blur (line 141). -/
structure Setup where
  W : Nat
  H : Nat
  T : Nat
  spp : Nat
  maxBounces : Nat
  lights : Nat
  blur : Bool

/-- The whole state: the shared variables, the jobs, and for every pixel the list of values written so far. -/
structure Cfg (Time R P V : Type) where
  time : Time
  rng : R
  job : Nat → Job P
  log : Nat → Nat → List V

variable {Time R P V : Type}

/-- Replace job `i`. -/
def Cfg.setJob (c : Cfg Time R P V) (i : Nat) (j : Job P) : Cfg Time R P V :=
  { c with job := fun k => if k = i then j else c.job k }

/-- Start of the render: no pixel written; every job at its first pixel with its own sampler (lines 145-157). -/
def start (u : Setup) (K : Kernel Time R P V) (t0 : Time) (r0 : R) : Cfg Time R P V where
  time := t0
  rng := r0
  job i := { x := x0 u.W u.T i, y := y0 u.W u.T i, s := 0, bounce := 0, light := 0, volume := false, phase := .pixel,
             priv := K.seed i }
  log _ _ := []

/-- One atomic step of job `i` (lines 156-571). -/
def step (u : Setup) (K : Kernel Time R P V) (i : Nat) (c : Cfg Time R P V) : Cfg Time R P V :=
  let j := c.job i
  match j.phase with
  | .pixel =>
      -- the two loop heads, lines 156-157
      if j.y < y1 u.W u.H u.T i then
        if j.x < x1 u.W u.T i then
          c.setJob i { j with s := 0, phase := .sample, priv := K.startPixel j.priv }
        else c.setJob i { j with x := x0 u.W u.T i, y := j.y + 1 }
      else c.setJob i { j with phase := .done }
  | .sample =>
      -- lines 173-197
      if j.s < u.spp then
        let p := K.jitter j.x j.y j.priv
        if u.blur then
          let d := K.drawTime p
          { c.setJob i { j with bounce := 0, phase := .bounce, priv := d.2 } with time := d.1 }
        else c.setJob i { j with bounce := 0, phase := .bounce, priv := p }
      else c.setJob i { j with phase := .write }
  | .bounce =>
      -- lines 198-371
      if j.bounce < u.maxBounces then
        let o := K.intersect j.bounce c.time j.priv
        match o.1 with
        | .volume => c.setJob i { j with light := 0, volume := true, phase := .lightTransform, priv := o.2 }
        | .miss => c.setJob i { j with phase := .accumulate, priv := o.2 }
        | .light => c.setJob i { j with phase := .hitLight, priv := o.2 }
        | .pass => c.setJob i { j with priv := o.2 }
        | .surface => c.setJob i { j with light := 0, volume := false, phase := .lightTransform, priv := o.2 }
      else c.setJob i { j with phase := .accumulate }
  | .hitLight => c.setJob i { j with phase := .accumulate, priv := K.hitLight j.bounce c.time j.priv }
  | .lightTransform =>
      -- head of the light loop, lines 229, 388
      if j.light < u.lights then
        c.setJob i { j with phase := .lightSample, priv := K.lightTransform j.light c.time j.priv }
      else c.setJob i { j with phase := .scatter }
  | .lightSample =>
      let d := K.lightSample j.light c.rng j.priv
      { c.setJob i { j with phase := .lightShade, priv := d.2 } with rng := d.1 }
  | .lightShade =>
      c.setJob i { j with light := j.light + 1, phase := .lightTransform, priv := K.lightShade j.light c.time j.priv }
  | .scatter =>
      if j.volume then c.setJob i { j with bounce := j.bounce + 1, phase := .bounce, priv := K.scatterVolume j.priv }
      else
        let d := K.scatter j.bounce j.priv
        if d.1 then c.setJob i { j with bounce := j.bounce + 1, phase := .bounce, priv := d.2 }
        else c.setJob i { j with phase := .accumulate, priv := d.2 }
  | .accumulate =>
      let d := K.accumulate j.s j.priv
      if d.1 then c.setJob i { j with phase := .write, priv := d.2 }
      else c.setJob i { j with s := j.s + 1, phase := .sample, priv := d.2 }
  | .write =>
      -- lines 534-571, then `++x`
      { c.setJob i { j with x := j.x + 1, phase := .pixel } with
        log := fun x y => if x = j.x ∧ y = j.y then c.log x y ++ [K.result j.priv] else c.log x y }
  | .done => c

/-- An execution: the scheduler picks, step by step, the tile whose job advances. -/
def run (u : Setup) (K : Kernel Time R P V) : List Nat → Cfg Time R P V → Cfg Time R P V
  | [], c => c
  | i :: is, c => run u K is (step u K i c)

/-- The schedule runs only existing tiles and brings every one of them to its end. -/
def Complete (u : Setup) (K : Kernel Time R P V) (sched : List Nat) (c : Cfg Time R P V) : Prop :=
  (∀ i ∈ sched, i < numTiles u.W u.H u.T) ∧
  ∀ i < numTiles u.W u.H u.T, ((run u K sched c).job i).phase = .done

instance (u : Setup) (K : Kernel Time R P V) (sched : List Nat) (c : Cfg Time R P V) : Decidable (Complete u K sched c) :=
  inferInstanceAs (Decidable (_ ∧ _))

end Huira.Tiles
