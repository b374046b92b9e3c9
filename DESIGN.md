# Formal model of huira-render/huira in Lean 4

## Trusted base

* Lean 4.33.0's kernel (and the elaborator only insofar as it produces terms the kernel checks).
* Axioms: every theorem depends on at most `propext`, `Classical.choice` and `Quot.sound` (check with
  `#print axioms`). No axioms of our own, no compiled-code tactics, nothing left unproved.
* Mathlib 4.33.0 as installed (definitions such as `ℝ`, `Real.exp`, `MeasureTheory.lintegral`, `List.Perm`;
  its proofs are kernel checked).
* The specification definitions that occur in the statements of the `CXX_…` theorems; they are kept
  short, next to the theorems, and do not mention the functions of the model except as the subject.
* The reading of the C++ source: every definition of the model cites the file and lines it models. The
  code is not run, so agreement of model and code rests on that reading.

### Modelling decisions that hold everywhere

* **Floating point.** `float`/`double` are exact numbers (`ℚ`, `ℝ` or an arbitrary ordered field) unless a
  property is about representation: integer pixel conversion and sensor digitising (`Num/Rounding.lean`:
  truncation, round-half-away), NaN/∞ (`Num/XFloat.lean`: reals extended by ±∞ and NaN with IEEE comparison
  rules), float bit patterns (`Offset/Model.lean`: sign, exponent and mantissa bits and any
  round-to-nearest addition), `float` sample counts (`Units/TimeModel.lean`: the real float grid). So a theorem
  over `ℝ` is a statement about the algorithm in exact arithmetic; rounding error is outside the model and
  said to be so in the note of the claim.
* **Memory and undefined behaviour.** An out-of-bounds access, signed overflow, invalid float→int conversion
  is a distinct outcome (`ub`) in the reader/loader models, never a default value.
* **Exceptions** are outcomes (`throw` with the state reached at that point), so "changes nothing" is provable.
* **Concurrency.** TBB loops are arbitrary orders of tile executions; the logger and the crash handler are
  transition systems over atomic steps with arbitrary interleavings and any number of threads.
* **Randomness.** The two uniform numbers are the product Lebesgue measure on (0,1)²; expectations are Lebesgue
  integrals with values in [0,∞], densities are with respect to solid angle `dz dφ` on the sphere.
* **Pointers** (`shared_ptr`/`weak_ptr`) are identities with an alive/expired flag.
* **External code** (Embree, CSPICE, CFITSIO, libpng, libjpeg-turbo, libtiff, assimp, FFT internals, TBB, the file
  system) is a parameter of the model with the documented contract as a hypothesis where one is needed
  (e.g. `SpiceOk` for time conversion, any sort that returns a sorted permutation, distinct Embree ids).

## Method

Modules are grouped by area: `Verif/<Area>/…Model.lean` (code model with citations), `…Props.lean` (specification,
property theorems, non-vacuity examples) and lemma files. If the code violates a property, the property is kept
in view as a `Prop` definition `CXX_full`, its negation is proved with a concrete witness (`CXX_violated`), and the
part that holds is proved under `_partial` names, together with exact criteria ("holds if and only if …")
where they exist. Theorems are tested against wrong programs: `seeded/LOG.jsonl` records hand-made and automatically
generated edits of the model, which theorems failed, and which were tightened because of a survivor.

## Plan by property

| id | model | proof |
|----|-------|-------|
| C01–C04 | registry state = object list + name map + per-object name/owned flag; ops as `step` (`Registry`) | invariant by induction over op lists; termination of name search by pigeonhole; C03 refuted by witness |
| C05–C07, C09 | tree of nodes with two modes, parents, SPICE strings; all setters with throw outcome (`SceneGraph`) | invariant over op lists without callbacks (partial), witness with callbacks; "delete always throws" for all reachable states |
| C08 | scene registries of geometries and primitives (`Assets`) | invariant over op lists |
| C10, C83–C87, C70 | node evaluation down the tree with position/rotation/velocity sources, light-time iteration, nadir frame, aberration (`Core/Node*`) | induction on the path to the root; derivative statements with `HasDerivAt`; contraction estimate for light time; exact error bound for aberration |
| C11–C13, C16 | stars with `Option` magnitude (NaN), header bytes, binary search loop (`Stars/Catalog`) | sortedness + loop invariant |
| C14, C15 | packed identifiers; line loop over a slot array with `ub` (`Stars/Tycho`) | arithmetic; loop invariant; witnesses |
| C17–C19 | index arithmetic, wrap functions, direct/FFT kernels as sums (`Image`); buffers and transforms of the FFT path with FFTW as a contract (`Image/Fft`) | omega / algebra; the discrete convolution theorem; witnesses for negative index and correlation-versus-convolution |
| C20 | buffer record of channels (`FrameBuffer`) | induction over ops; aliasing witnesses |
| C21–C27, C73, C74 | byte-level readers and writers with `ok / throw / ub` outcome (`ImageIO`) | safety by loop invariants for all byte strings; decode∘encode by induction; witnesses for overflows |
| C28, C29 | `rpow` transfer functions; string table | monotonicity, inverse off the threshold gap; case analysis |
| C30–C32, C75 | ring buffer, flags, atomic compare-exchange interleavings (`Logger`) | refinement to the list of messages; invariants over all interleavings |
| C33, C34, C72, C76 | bounded medium stack; Beer–Lambert; free-path and phase sampling (`Volumes`) | induction on well-nested words; integrals |
| C35, C36 | ADC pipeline, setter validation (`Sensor`) | order lemmas; induction over histories |
| C37–C44, C53, C77 | pinhole algebra, camera state machine, distortion, aperture sampling and PSF kernels (`Camera`) | field algebra; invariants over setter histories; fixed-point and contraction lemmas; disc-measure integrals |
| C45–C48 | clipping, convex fans, cubic trajectory arcs, intervals, spline solve (`Frustum`, `Arc`) | convexity induction; sweep invariant; Thomas algorithm induction; intermediate value theorem |
| C49–C52, C54–C56, C78–C82 | tiles, sample stamping, PSF table, Welford folds, path-tracer state machine, environment map, sphere lights (`Render`) | div/mod arithmetic; commutation of disjoint writes; list induction; integrals over the cone of a light; witnesses |
| C57–C60, C93, C100, C101 | the seven reflectance models, hemisphere sampling, visible normals, tangent frames (`Materials`) | algebra, positivity; densities as push-forward measures (change of variables on disc and sphere, polar coordinates); hemispherical integrals |
| C61, C62, C89 | units as affine maps to SI, dimension exponents, NaN guard (`Units`) | algebra, group laws, injectivity of the printed unit |
| C63, C64 | rotation matrices/quaternions/Euler angles, transforms (`Core/Rotation*`, `Core/Transform*`) | matrix algebra; exact criteria for composition/inverse |
| C65, C88 | time scales and sampled intervals (`Units/Time*`) | float-grid rounding bounds; inverse laws under `SpiceOk` |
| C66, C90, C91 | bins, spectral algebra, conversion and sampled curves (`Spectral`) | list induction; interval integrals of piecewise linear functions |
| C67, C68 | ray–ellipsoid quadratic; index/vertex buffers (`Geometry`) | nearest-root analysis; induction over buffers |
| C69 | float/double bit patterns (`Offset`) | case analysis on exponent and sign |
| C71, C92, C94 | material slots, texture lookups, evaluation at a point (`Materials/Material*`) | induction over setter histories; congruence |
| C95, C99 | world-space hit resolution; collection of instances, lights, stars from the graph (`View`) | cofactor algebra; tree induction with multisets |
| C96–C98 | photometry: Planck integrals, magnitudes, phase laws, proper motion (`Photometry`) | real analysis; trigonometry |
| C102 | Keplerian orbit callback (`Core/OrbitModel`) | CSPICE `conics_c` as a parameter with contract; Kepler equation solved by intermediate value theorem and monotonicity; derivative by implicit function |
| C103 | depth and normal visualisation (`Image/ColorMap`) | running minimum/maximum fold invariant over extended floats |
| C104 | PNG reading and writing (`ImageIO/Png`) | libpng as a parameter with contract; grid/row index lemmas; rounding lemmas of C25 |
| C105 | TIFF reading and writing (`ImageIO/Tiff*`) | libtiff as a parameter (buffer sizes and contents as documented); loop lemma over write targets; grid arithmetic of float rounding for exact levels |
| C106 | JPEG reading and writing (`ImageIO/Jpeg`) | TurboJPEG as a parameter with contract; grid index lemmas; int overflow modelled |
| C107 | In-memory TIFF stream (`ImageIO/TiffMem`) | refinement of the callbacks to a read-only file, by induction over the call history; 64-bit wrap modelled |
| C108, C109 | model loader: node tree and meshes (`Loader`) | Assimp's output as input; effect-with-exception monad; induction over node trees into the graph of C99; mesh constructor of C68 |
| C110, C111 | model loader: materials, textures and the load as a whole (`Loader`) | caches and texture lists as state; invariant relating caches to pictures; registration events of an effect-with-exception monad |
| C112, C113 | the Tycho-2 commands of the CLI (`Cli`) | disk operations as a trace, crash = prefix with a cut write; buffered stream on a finite device; invariant over histories; refinement to C11 |
| C114, C115 | command dispatch and `make_path` (`Cli/Dispatch`) | characterisation by splitting the argument list; induction on path prefixes |
| C116, C117 | the bounce loop of the path tracer as a probabilistic program (`Transport`) | mean of a program by structural recursion, loop invariant linear in the throughput, induction on the bounces; squeeze to the limit |
| C118, C119 | numpy arrays as memory with base, shape and strides; constructors, buffer protocol, `to_numpy` (`PyBind/Numpy*`) | induction on the index list, arithmetic of offsets, counterexamples by evaluation |
| C120 | Python objects, owners, member images and storage blocks as a transition system (`PyBind/Views*`) | invariant over all scripts (storage alive iff reachable slot holds it), counterexample scripts |
| C121 | Python quantities on top of the unit table (`PyBind/Units`) | algebra over the reals, exhaustive case analysis over the finite unit table |
| C122 | `spkezr`, `pxform`, `sxform` over an abstract ephemeris with differentiable frames (`Core/SpiceModel`, `Core/SpiceProps`) | derivative of the rotation, uniqueness of the angular velocity, counterexample spinner |
| C123 | error status, kernel pool, leap seconds, current directory as a transition system (`Core/SpiceSession*`) | invariant over all call histories |
| C124 | interleavings of the three steps of `call_spice` (`Core/SpiceThreads`) | invariants over all schedules, counterexample schedules |
| C125 | `add_stars`, `set_stars`, `update_stars` as a transition system over an abstract catalogue (`Stars/Session*`) | invariant over all call histories |
| C126 | `evaluate_transmittance` with its random draws and medium stack, and the pass-through of the path tracer (`Volumes/Shadow`) | expectation by induction on the crossings, counterexamples |
| C127 | model graphs with the explicit-stack walk, deletions, renders (`Assets/Graph*`) | permutation of the walk, invariant over all histories, counterexample program |
| C128 | solid angle of a pixel as two spherical triangles, projected aperture, power factor (`Camera/Gnomonic`, `Camera/SolidAngle*`) | gnomonic change of variables for the surface measure of the sphere, closed form of a rectangle, telescoping sum, counterexample pixel |
| C129 | header as a list of cards over a contract for CFITSIO, every field of the metadata (`ImageIO/FitsHeader*`) | calls with new keys append, look-up of every field, decimal rounding, induction over generations, counterexamples |
| C130 | the rational and tail approximations of the Bessel function with their literal coefficients (`Camera/Airy`), the diffraction integral (`Camera/Bessel`) | power series and integer polynomial bounds for x < 8, energy estimate for Bessel's equation for x >= 8 |
| C131 | decoding of the picture, look-up with wrapping and interpolation where NaN spreads, the material (`Materials/NormalMap`) | reduction of the look-up between four pixels in any period, scaling of directions, counterexamples |
| C132 | depth first search for the parent on the scene graph (`SceneGraph/Parent`) | soundness and completeness of the search, invariants over histories |
| C133 | the recursive printing of the scene graph as text (`SceneGraph/Print`) | lines are a depth first enumeration; reading back by depth and number, induction over forests; counterexamples |
| C134 | the path loop as far as it feeds the depth channel: hits, passes, medium stack, bounces, samples (`Render/AovModel`) | a relation for lines of sight as specification; induction over turns and samples; counterexample room |
| C135 | the other channels of the same loop, `camera_to_world_` | sums over samples; rotation algebra; counterexamples |
| C136 | the depth test of point sources on top of the rendered depth image, joined with the tiles of C50 | index arithmetic of the row-major image; counterexamples |
| C137 | the turns of the path loop along a straight line of sight with the medium stack, infinity and NaN (`Volumes/Cutout`) | induction over the surfaces crossed; joined with the stack theorems of C33 and the pixel statistics of C79 |
| C138 | the functions of C97 and the light made by `new_sun_light` (`Photometry/BlackBody`) | the code's sum identified with the trapezoidal rule of Mathlib and its error bound; the Bose integral by expansion in a geometric series and zeta(4); scaling lemmas |
| C139 | `render` from settings to pictures, with the light before the PSF as input (`Render/Frame*`) | what a history leaves is characterised by the last requests of each kind (induction from the right); the outcome of `render` by cases on them; values through the convolution theorem of C19; energy by re-indexing shifted sums |
| C140 | the models of C37, C50 and C53 put together (`Render/Place`) | the pixel that sees a direction by inverting the projection; the stamping theorem of C50 with the kernels written in picture coordinates |
| C141 | `isoformat`, the stripping of `+00:00`, the text of `to_iso_8601` and `fromisoformat` on lists of characters; SPICE as a clock (`PyBind/DateTime`) | the last six characters of every text `isoformat` can give; digits read back; the printed millisecond is the nearest |
| C142 | programs over image variables: constructors with the 32-bit product, defaulted copy and move, fill, clear, +, at, get_channel (`Image/Values`) | refinement: every statement keeps the row-major representation of the pictures, by induction over the program |
| C143 | the observer's pose with the sensor's rotation, its inverse, apparent transforms, transforms inside models, stars (`View/Observer`) | rotation algebra; induction over the path into a model |
| C144 | the same, against the world positions of C10/C86 (`View/ObserverProps`) | affine maps kept by induction over the path into a model; exact condition on a uniform scale |
| C145 | the same, with the aberration of C70 for nodes and for stars (`View/ObserverProps`) | the directions aberration keeps are characterised exactly |
| C146 | the id counter as read and write steps of threads, move constructor, destructor (`SceneGraph/Ids`) | invariant over histories: ids below the counter and distinct |
| C147 | the loops that look for unlinked objects after the collection of C99 (`View/Report`) | the collected batches are those of the places in the graph (C99's invariants) |
| C148 | the parallel loops over slots of a vector, with undefined reads (`View/Report`) | induction over any order in which the slots are processed |
| C149 | the loops of a readout with the process-wide generator and distributions that keep numbers back (`Sensor/Noise`) | induction over the loops: the pair of normal numbers of each value by its index; induction over the readouts of a process |
| C150 | the registries of `Registry/Model` for any number of scenes, sharing the objects' name and ownership fields (`Registry/Scenes`) | each scene steps as if alone (simulation), invariant over histories: registries disjoint, names and maps agree |
| C151 | geometries, primitives and instances of any number of scenes (`Assets/Mixed`) | invariant over histories; induction over the purge |
| C152 | lights with addresses, unresolved objects, instances of any number of scenes, the search for the light (`Assets/Suns`) | invariant over histories: instances point to living lights of their scene, addresses of living lights differ |
| C153 | programs of scopes, log calls, exceptions and crashes; the scope stack, the crash messages, the dump file, the process after a handler returned (`Logger/Crash` over `Logger/Model`) | induction over programs against a specification that reads the scopes off the text; the ring buffer's refinement (C30); induction over handler entries |
| C154 | all formulas over quantities and plain numbers, typed by dimension and unit (`Units/Formula` over `Units/QuantityModel`) | mutual induction over formulas, with C61 for each operator |
| C155 | `set_matrix_`, `orthonormalize_`, products, inverses and casts with a rounding after every operation (`Core/RotationFloat`), histories of calls of any shape | perturbation of Gram–Schmidt and of the determinant (`Core/RotationRounding`), a rounding-error bound for each function, then induction over the history |
| C156 | the camera's blur state (focal length, aperture, pitches, focus, `psf_`, `use_aperture_psf_`, defocus radius) under every history of setters (`Camera/Blur`) | simulation of the settings as told; induction over histories; counterexample histories |
| C157 | composition of nested transforms and of the observer's inverse with every operation rounded (`Core/DeepTree`) | induction over depth on top of the rotation bounds of C155 |
| C158 | reference counts of Embree scenes, `shared_ptr` holders of geometries, views' construction, destruction, implicit copy and assignment (`View/Lifetime`) | invariant relating every count to its holders, by induction over histories; universal counterexamples |
| C159 | `blas()` test, reset, read and instancing as separate steps of interleaved threads (`View/Threads`) | invariant over all schedules; a racing schedule for every pair of threads sharing an unprepared geometry |
| C160 | what a view copies and what it shares, under every later call (`View/Snapshot`) | frame lemmas per call, induction over histories; universal counterexamples |
| C161 | heap of resolutions with reference members, allocator reuse (`Core/Resolution`) | refinement of a map of pairs, induction over histories |
| C162 | the eight operators with rounding per type (`Core/Resolution`) | algebra; universal counterexamples for s/res and for narrowing |
| C163 | the texts of the asset lists and of the summary, over every registry history (`SceneGraph/Listing`) | sortedness invariant of the registry; injectivity of the text; universal counterexamples |
| C164 | pruning of assets over an arbitrary reference graph (`SceneGraph/Listing`) | exact characterisation of the scenes for which it holds; universal counterexample |
| C165 | loading of arguments and casting of results by pybind11, with the signatures of the bound functions (`PyBind/Callable`) | induction on types: which signatures can be called; case analysis of the whole list of functions |
| C166 | scripts as lists of calls and the rays they hold (`PyBind/Callable`) | invariant over scripts |
| C167 | import of the module and lifetimes of strings kept by `__repr__` (`PyBind/ImageRepr`) | invariant over imports and histories |
| C168 | the constructor of sensors over arbitrary configurations, with the setters of C36 (`Sensor/Construct`) | exact conditions; universal counterexample; invariant over histories for the repair |
| C169 | the pixel loops of the conversions and the bundle they make (`ImageIO/BundleColor`) | loop invariants by induction over rows and columns; exact characterisation of the violation |
| C170 | the text of the list of options over arbitrary argument lists (`Cli/Help`) | induction over the list; exact characterisation of the arguments shown right; universal counterexample |

## Source coverage

| source (under `include/huira_impl` or `include/huira`) | model |
|---|---|
| `scene/name_registry`, `scene/scene_object.hpp`, `handles/handle.ipp`, registry parts of `scene/scene.ipp` | `Registry`, `Assets` |
| `scene/node.ipp`, `scene/frame_node.ipp`, `scene/instance`, `handles/scene/*` | `SceneGraph`, `Core/Node*` |
| `scene/scene_view.ipp` (collection, transforms, hit resolution, unresolved objects, stars) | `View`, `Photometry` |
| `stars/**` | `Stars`, `Photometry` |
| `images/image.ipp`, `render/frame_buffer.hpp` | `Image`, `FrameBuffer` |
| `images/io/{bmp,tga,hdr,fits,png,jpeg,tiff}_io`, `color_space`, `convert_pixel`, `read_image` | `ImageIO` |
| `util/logger.ipp` | `Logger` |
| `volumes/**` | `Volumes` |
| `cameras/**` | `Camera`, `Sensor` |
| `core/spice.ipp` | `Core/Spice*` |
| `assets/model.ipp` | `Assets/Graph*` |
| `scene/scene.ipp`: stars | `Stars/Session*` |
| `cameras/camera_model.ipp` (solid angles and power of pixels) | `Camera/SolidAngle*`, `Camera/Gnomonic` |
| `cameras/psfs/airy_disk.ipp` | `Camera/Airy`, `Bessel`, `AiryCore`, `AiryTail`, `AiryEight`, `AiryEnergy` (all arguments; rounding not modelled) |
| `render/renderer.ipp` 24-62, 129-132, 569-577, 656-702, 1014-1017; `sensors/simple_sensor.ipp` 65-116; `cameras/camera_handle.ipp` 342-349 | `Render/FrameModel` (C139) |
| `bindings/python/**` (`types_py`, `rotation_py`, `image_py`, `frame_buffer_py`, `units_py`, `time_py`) | `PyBind` |
| `render/{frustum,trajectory_arc,psf_lut,renderer,interaction}`, `render/sampler.hpp` | `Frustum`, `Arc`, `Render`, `Transport` (bounce loop), `View/Hit*`, `Offset` |
| `materials/**`, `handles/material_handle.ipp` | `Materials` |
| `geometry/**` | `Geometry` |
| `assets/io/model_loader` (Assimp as input) | `Loader` |
| `assets/lights`, `assets/unresolved`, `core/physics` | `Render/Light*`, `Photometry` |
| `util/paths` (`make_path`), `apps/huira_cli/**` (not the option parser and progress bars) | `Cli` |
| `core/{rotation,transform,spectral_bins,time}`, `core/interval.hpp`, `units/**` | `Core`, `Units`, `Spectral` |

Not modelled: the bodies of external libraries; Embree traversal and the user-geometry callbacks' C glue;
CSPICE itself; the data-directory part of `util/paths`, `platform/**`; the Python bindings beyond numpy arrays, images, frame buffers, quantities and times; the examples; the progress bars of the CLI.

## Disagreements between code and property, and gaps (one entry per partial claim)

"Violated" means that the negation of the full statement is proved about the model with a concrete witness (`CXX_violated`).

* **C01** (Names identify scene objects): Everything proved for all histories except the non-empty clause, which the code violates (rename to the empty string).
* **C03** (Renaming an object to its present name changes nothing): The code violates the property in every state.
* **C05** (SPICE-driven frames have SPICE-driven ancestors): Violated when a callback is installed on a frame with SPICE children; proved for every other history.
* **C06** (A rejected frame operation changes nothing): Violated by new_spice_subframe under a manual frame (orphan child remains); proved for every other call.
* **C07** (Deleting a subframe or instance removes it): Violated: deleting a node never succeeds; proved that it always throws and that nodes are permanent.
* **C08** (No primitive outlives its geometry): No-dangling part proved for all histories; delete-succeeds part violated and partial deletion shown.
* **C09** (Static getters report the component they name): Rotation getter guard tests the position mode (violated both ways); positions and refusals proved.
* **C13** (Foreign files are rejected): Length clauses violated (short header accepted, truncated table returns stars not in the file); magic/version rejection and contents of long-enough files proved for all byte strings.
* **C15** (Loading a Tycho-2 file is memory safe and row-local): Violated: no final newline writes out of bounds, blank identifier columns convert NaN to int, proper motion leaks from dropped rows; safety and locality proved otherwise.
* **C17** (Pixel addressing): Violated for negative coordinates, which are not refused (C17_violated, C17_negative_reads), and for floating-point coordinates: up to one pixel left of or above the picture counts as the first column or row (C17_pixel_outside), NaN, infinities and numbers beyond int are converted with undefined results (C17_pixel_undefined). Proved: bijection, upper bounds, linear access, and the pixel a point lies in (C17_pixel_partial).
* **C18** (Texture sampling stays inside the image): Violated in mirror mode for |u| >= 2^31 (undefined conversion); otherwise proved for all sizes, modes, coordinates.
* **C19** (Convolution result does not depend on the algorithm chosen): Violated: the direct path is a correlation, the FFT path a convolution; both characterised for all sizes, agreement proved for symmetric odd kernels. FFTW enters as the contract of its documentation (C19_fftw: discrete Fourier transforms of the packed buffers give the linear convolution; the contract is met by the inverse formula, inverse2_isC2R).
* **C20** (Frame-buffer channels are independent): Violated: enable_direct/indirect/power-style aliasing of channels and a 0x0 resolution; everything else proved for all histories.
* **C21** (BMP decoding is memory safe): Violated: signed overflow for huge declared dimensions; safe for every byte string whose header is moderate.
* **C22** (TGA decoding is memory safe): Violated five ways (16-bit truecolour and over-long raw packets read past the buffer, palette index out of range, missing palette, int overflow of width*height for huge images: C22_image_overflow); the raw reader is safe for every byte string outside those cases.
* **C23** (HDR decoding is memory safe): Raw reader: all byte strings (C23_safe, C23_size). Image: proved for machines that cannot allocate 24 GiB (C23_image_partial); violated otherwise, a file of 32768 x 65536 pixels overflows the int product of width and height (C23_image_violated).
* **C25** (Integer pixel conversion round trips): Violated: every negative signed value is off by one level, uint32 maximum overflows; unsigned up to 16 bits and non-negative signed values proved for every rounding function meeting the float32 specification.
* **C26** (FITS write/read round trip): Violated: 16-bit sensor level in BITPIX 16 without offset, 8-bit black level, user SATURATE; integer, float and 8-bit round trips proved. Exact arithmetic between header scaling and CFITSIO.
* **C28** (sRGB transfer functions are inverse and monotone): Violated at the threshold (encode decreases there); strict monotonicity and both inverses proved outside an interval of width 1e-7, error bound inside.
* **C30** (The log dump is the tail of the log): Violated: entries with an empty message are not dumped; the 64-bit write counter wraps. Proved exact otherwise for every history of fewer than 2^64 calls.
* **C32** (A crash report is printed at most once): At most one report proved for any number of threads and interleavings; exactly one violated (a second crashing thread can end the process first), proved for a single crashing thread.
* **C33** (Leaving a medium restores the surrounding medium): Violated for overlapping media and beyond 8 nested media; nested media restore the stack at any depth, innermost active up to depth 8.
* **C35** (Sensor response stays in range and is monotone): Violated only through the zero gain of C36; range, monotonicity, saturation proved for every valid configuration and non-NaN charge. Exact arithmetic with NaN/inf; bit depths above 127 (where 2^bits overflows float) not modelled.
* **C36** (Rejected sensor settings are not applied): Violated: set_gain_db accepts gains that underflow to zero; proved for every other history, and that throwing setters change nothing.
* **C38** (The view frustum is the field of view): Violated: the frustum ends at the upper-left corners of the last column/row, and has no side planes for sensors of fewer than three rows; exact characterisation proved otherwise.
* **C39** (Rejected camera settings are not applied): Violated by set_focal_length, set_intrinsics(_matrix) and configure_sensor_*; proved for all other setters.
* **C40** (Derived camera data follow the settings): Violated with distortion models, convention changes and set_sensor; proved for every history of the other setters.
* **C41** (Intrinsic-matrix round trip): Violated: the principal point is read from the transposed entries and is always (0,0); focal lengths and set_intrinsics proved.
* **C42** (Lens distortion models agree with their definition): Violated: zero-coefficient OpenCV model doubles coordinates and its inverse does not converge; Brown and Owen proved; settled points, residual and convergence bounds proved for every displacement field.
* **C46** (Visible intervals are exact): Violated through missed crossings (C48): half-visible trajectories reported fully visible. Interval intersection proved exact; clipping of any number of planes proved exact given complete crossings, unconditionally for up to three samples when no solver threshold interferes.
* **C48** (Plane crossings are all found): Violated: a segment whose cubic has one real root reports no crossing (monotone) or a wrong one (otherwise), and coefficients below 1e-10 lose roots. All other branches (linear, quadratic, three roots, repeated roots) proved exact, for any number of samples.
* **C49** (Every pixel is rendered once, independent of scheduling): Violated when the scene has a light (all lights draw from a sampler shared between tiles) or motion blur; proved schedule-independent otherwise, the tiling proved an exact partition, written once, and the step machine proved to be the nested loops over tiles, pixels and samples (C49_one_worker, C49_loops_partial).
* **C50** (Unresolved sources are not lost at tile borders): Violated without a PSF: rounding can move a source out of its tile or past the last column and it is lost (C50_drawn_iff gives the exact condition); with a PSF proved for every image, source list and kernel.
* **C51** (Motion-blur weights conserve energy): Violated: every visible interval gets the energy of the whole exposure (C51_total); proved for sources visible throughout, with energy, coverage and density of samples.
* **C54** (Sampling statistics): Power heuristic gives 0 and 0 (or NaN) at degenerate densities; otherwise proved, with Welford statistics for any number of samples and the stopping rule in terms of variance and mean (C54_stop_rule).
* **C55** (Interpolated camera and instance motion hits its key frames): Violated: with two or more keys rotation and scale are lost everywhere; positions proved.
* **C56** (Mirrors show lights): Violated: after a specular bounce the MIS weight of a light is 0; camera ray and surface weights proved.
* **C58** (Reflectance is reciprocal and non-negative): Reciprocity and non-negativity proved for every pair of directions above the surface; violated beyond that because the Lambertian model ignores the side of the outgoing direction (C58_violated).
* **C59** (Hemisphere sampling matches its pdf): Uniform, cosine and power-cosine sampling: full density statement (push-forward of the uniform measure equals pdf times solid angle). GGX: proved where the pdf is not clamped at 1e-8. Visible normals (C59_vndf_partial): the normals drawn have exactly the density D*G1*max(0,wo.h)/wo.z and the pdf returned is that density floored at 1e-8; missing: views grazing beyond 1e-4 (cosine squared clamped) and views so near the pole that the routine uses a fixed tangent (0 < squared horizontal length <= 1e-7), where the frame is not orthogonal. Sine hemisphere: violated (C59_sine_violated).
* **C61** (Unit conversions): Round trips, chains, comparisons, products and quotients proved for every scale; sums/multiples for units without offset; every unit's factor except the mile. Violated for sums of Celsius/Fahrenheit temperatures (C61_violated) and for the mile (1609.34 m instead of 1609.344 m); spectral quantities print unconverted numbers beside the SI unit. double arithmetic is taken as exact.
* **C64** (Transform algebra): Violated: composition and inverse are wrong for non-uniform scale (C64_compose_iff, C64_inverse_iff give the exact conditions), the inverse's velocity is wrong for rotating or scaled frames, to_matrix transposes; proved for uniform scale.
* **C65** (Time intervals are sampled correctly): Exact for up to 2^24+1 samples, error bound for any number; violated beyond because the count is rounded to float (C65_violated). double arithmetic is taken as exact.
* **C66** (Spectral bins partition the band and conserve totals): Accepted bins are exactly the well-formed ones; totals, bands, arithmetic, extrema, validity proved over exact reals. Violated: an initializer list whose length is neither 1 nor N leaves bins uninitialised (C66_init_list_violated); a reversed band is not rejected (C66_reversed_band).
* **C67** (Ellipsoid hits): Nearest hit, hit data, completeness and bounds proved for every ellipsoid of positive radii and every ray (tnear=0, as the renderer calls it), over exact reals; hit frame proved away from the poles. Violated: tangent frame near the poles (C67_violated), radii below 1e-4 (C67_tiny).
* **C68** (Meshes never index outside their vertices): Accepted buffers, interpolation and convexity proved for every mesh of at most 2^32 indices; violated: indices that do not make up a whole triangle are accepted (C68_violated); index arithmetic wraps beyond 2^32 (C68_wraps).
* **C69** (Secondary rays start on the right side): Bit-level float and double model with any round-to-nearest. Every coordinate moves along the normal, strictly when the component is at least 1/256 (1/65536 for double), by a bounded amount; the point ends strictly on the normal's side. Violated: smaller components do not move at all (C69_violated); for -0.0 the integer addition overflows (C69_overflow). The sign of the dot product choosing the side is taken as exact.
* **C70** (Stellar aberration is relativistic): Violated: factors of gamma are missing, the direction is not a unit vector (7 percent short at 0.6 c); error proved at most 3 beta^3.
* **C72** (Free-path sampling follows Beer-Lambert): Violated for mean extinction in (0, 1e-6] (never scatters at any distance); distribution and unbiased throughput factors proved above that.
* **C74** (HDR orientation is honoured): Violated: the orientation line is ignored; proved for the standard orientation.
* **C75** (Concurrent logging): Violated by a resize during a call and by a call overtaken by a whole buffer of others; proved for every other interleaving.
* **C77** (Depth of field focuses at the focus distance): Violated with a distortion model (focus surface is a sphere); proved for undistorted cameras.
* **C78** (Light is counted once when scattering in a medium): Violated: light reached after a medium scatter is counted with full weight by two estimators.
* **C79** (A pixel is not lost because of some of its samples): Violated by NaN samples; proved for finite samples.
* **C83** (SPICE nodes report SPICE's state): Violated when only one component is from SPICE: the parent's velocity is added to SPICE's, and the parent's angular velocity (with SPICE's divided by the scale); proved when both are, and for positions and orientations.
* **C84** (Reported velocities are rates of change): Violated: rates given in body axes are reported as if in parent axes (C84_body_iff); proved for rates in parent axes at any depth. Turns below 1e-12 rad since the epoch are ignored by the code and excluded.
* **C85** (Getters of a node answer according to the component's own source): Violated: rotation, angular velocity and frame getters look at the source of the position.
* **C89** (A quantity never holds NaN): Proved for value-returning operators; violated by the assigning operators +=, -=, *=, /= (C89_violated).
* **C90** (RGB input keeps its spectrum when converted to other bins): Proved when the bins overlap a tenth of the red band; violated otherwise because the overlap test looks at the red bin only (C90_violated).
* **C93** (Sampling a reflectance model is unbiased): Proved for all models: the five cosine-sampled ones without restriction, Cook-Torrance (C93_cook_density_partial, C93_cook_unbiased_partial) for unit views whose squared cosine is at least 1e-8 and that are not inside the tiny cone where the visible-normal routine uses a non-orthogonal tangent (0 < squared horizontal length of the stretched view <= 1e-7). float arithmetic is taken as exact.
* **C94** (Evaluating a material at a point): Proved whenever the surface has a tangent; violated for surfaces without tangents, where a zero vector is normalised (C94_violated).
* **C95** (Hits are resolved in world space): Unit, facing and side facts proved for every invertible transform; normality and orthonormal frame for equal scale factors (exact criterion in C95_normal_iff). Violated for unequal scale factors (C95_violated_scale), for moving instances (C95_violated_motion) and for surfaces without tangents (C95_no_tangent). Exact reals.
* **C96** (Unresolved objects have the brightness their description says): Emitter proved. Sphere: phase law, inverse square and proportionality proved; violated: it reflects three eighths of what it should (C96_sphere_violated) and throws when the rounded cosine exceeds one (C96_sphere_unclamped). Asteroid: geometry, phase law and inverse squares proved; violated: distances are multiplied by the astronomical unit, over 220 magnitudes too faint (C96_asteroid_violated). Exact reals; the light's own irradiance is an input.
* **C97** (Magnitudes and colours become photon fluxes consistently): Proved for every magnitude, bins and for colours BT-VT > -0.793; violated beyond, where the temperature is negative (C97_violated). The trapezoid sums are modelled exactly as coded; exact reals.
* **C98** (Stars are drawn where the catalogue says, moving with their proper motion): Unit vector, catalogue position at J2000 and proper motion proved for all inputs off the poles; epoch normalisation is exact without motion in declination, with the exact error given otherwise (C98_epoch_partial), so the full statement is violated (C98_epoch_violated).
* **C99** (Everything in the scene graph is rendered once, where it is): Proved for every finite graph, any transform product and any distinct Embree identifiers. Violated: resolving a hit on a sphere light (C99_hits_violated), irradiance of an object instanced twice (C99_irradiance_violated), light instanced twice (C99_illumination_violated). Embree's tracing is outside the model.
* **C100** (No surface reflects more light than it receives): Lambertian: exactly the albedo; Lommel-Seeliger: exact value, at most half the albedo; McEwen: at most 95 % of the albedo; Oren-Nayar: at most albedo (A + B sin/2), so conserved for roughness 0 or at least 0.21 - each for every frame and direction. Violated by Oren-Nayar at roughness 0.05, Hapke with albedo 1 (3/2 log 2 at normal incidence) and Cook-Torrance (at least 1.01): C100_violated. Exact reals.
* **C102** (A node on a Keplerian orbit follows the ellipse described by its elements): CSPICE conics_c is a parameter with its documented contract (first element is the perifocal distance). Violated for every eccentric orbit (C102_violated, C102_eccentric): the callback passes the semi-major axis as perifocal distance, so the node moves on the ellipse with semi-major axis a/(1-e) (C102_actual). Proved for circular orbits (C102_circular_partial) and, for every e < 1, velocity = rate of position, Newton's law, period of the actual ellipse (C102_dynamics_partial).
* **C103** (The depth and normal pictures show the depths and normals of the image): Violated when all object pixels have the same depth: they become NaN (C103_flat, C103_violated). Proved for images with two different depths (C103_depth_partial) and for normals (C103_normals).
* **C104** (PNG files are read and written pixel by pixel): libpng is a parameter: a parsed file delivers the samples its documentation promises after the transformations requested, and reads back what it wrote. Reading proved for every valid complete file below 2^31 pixels (C104_read_partial, C104_read_mono_partial); round trip proved for images without NaN and hints sRGB/linear/other gamma (C104_roundtrip_partial, C104_exact_partial, C104_mono_partial). Violated: a file whose rows end early makes libpng jump over live vectors (C104_truncated, C104_violated_read), 2^31 pixels overflow int (C104_overflow), a NaN component is converted to an integer (C104_nan, C104_violated), the Unknown hint and gammas near 1 and 2.2 are not kept (C104_hint_lost, C104_violated_hint), and the 16-bit depth is not reported after reading (C104_depth_lost).
* **C105** (TIFF files are read and written pixel by pixel): libtiff is a parameter with its documented buffer layout. Proved for grey/RGB(+alpha) files whose sizes fit int (C105_read_partial, C105_read_mono_partial, C105_palette_partial), refusals (C105_refuses, C105_channels, C105_strip_checked, C105_write_refuses), round trip (C105_roundtrip_partial, C105_roundtrip_mono_partial, C105_exact_partial). Violated: damaged tiles are returned as black (C105_tile_unchecked), subsampled YCbCr reads past the row buffer (C105_ycbcr_oob), photometric interpretation and extra samples are ignored (C105_photometric, C105_alpha_misplaced), int overflow (C105_overflow), NaN and very wide images when writing (C105_nan, C105_wide), alpha and metadata lost (C105_metadata_lost).
* **C106** (JPEG files are read and written pixel by pixel): TurboJPEG is a parameter with its documented contract; compression error is a parameter epsilon. Proved below 2^31 bytes of RGB and without NaN (C106_read_partial, C106_read_mono_partial, C106_roundtrip_partial, C106_safe_partial). Violated: larger images overflow the int buffer size (C106_overflow, C106_violated), a NaN component is converted to an integer (C106_nan).
* **C108** (A loaded model has its parts where the file puts them): Assimp is a parameter: its parsed node tree is the input. Proved for trees whose matrices are rotation, positive scale and translation, with uniform scale on inner nodes (C108_node_partial, C108_model_partial); C108_node_iff shows a single node is placed right exactly in that case. Violated: mirrored, flat and tiny nodes make the load throw (C108_refused, C108_violated), slightly sheared nodes are accepted and moved (C108_shear); a dangling mesh index throws below the root and is skipped at the root (C108_dangling).
* **C109** (A loaded mesh is the mesh of the file): Assimp's parsed mesh is the input; float narrowing is identity (reals). Proved for every mesh naming an existing material (C109_mesh) and refusals (C109_bad_index). Violated: a mesh with no material is announced as using the default but the load throws (C109_no_material, C109_violated).
* **C110** (The materials of a loaded file look as the file describes them): Assimp, the file system and the image readers are parameters. Proved for files in which no picture has two roles, roughness and metalness are one picture, and embedded or emissive pictures are not marked sRGB (C110_materials_partial); textures in the scene are kept and formats recognised for every file (C110_keeps, C110_format). Violated: a material depends on earlier ones through the cache (C110_order, C110_violated), embedded sRGB base colours and all emissive pictures are not linearised (C110_embedded, C110_emission), a separate metalness picture is ignored or also used as roughness (C110_one_picture).
* **C111** (Loading a model succeeds as a whole or leaves the scene unchanged): Proved: success adds exactly the parts of the file (C111_load_partial, end to end with C108-C110); a missing or refused file adds nothing (C111_early_partial). Violated: every later failure leaves the model, the reflectance model and all materials behind (C111_leftover, C111_violated).
* **C112** (A successful fetch leaves every Tycho-2 file complete): Proved on a device with room: exit 0 leaves every needed file complete (C112_success_partial), any history of uninterrupted runs keeps every file absent or complete (C112_history_partial), --force heals anything (C112_force_partial), a crash damages at most one file (C112_crash_confined_partial), exit codes, idempotence and bystanders without conditions on the device. Violated: a file cut short by a crash is skipped as already there (C112_crash_violated); the result of close is ignored, so the last held bytes can be lost with exit 0 (C112_device_violated); a failed --force run deletes good files (C112_refresh_violated).
* **C113** (Processing Tycho-2 turns the files into exactly one complete catalogue and loses no star): Proved on a device with room: contents, clean-up, refusals, no star lost at any crash point (C113_crash_partial) and end to end from server to read_star_data (C113_end_to_end_partial, with C11). Violated: the output stream is never checked, so on a full device exit 0 with --clean deletes the sources and leaves a truncated catalogue (C113_device_violated); an older catalogue is emptied before the new one is written (C113_old_violated). The two text parsers are parameters (see C15).
* **C115** (make_path provides the directories a path needs): Proved: exact effect, failure condition, idempotence, file names with an extension, directory names without. Violated for the rest: a file name without an extension becomes a directory and then cannot be opened (C115_file_violated); a directory name with a dot is not created (C115_dir_violated). Links, permissions and roots are not modelled.
* **C116** (The expected picture is the light transported by the scene): Proved for scenes of surfaces, layers, lights and background (finite sets of directions, exact reals, no media, no transmission, no mirrors, no clamping, lights not hiding one another): the exact mean for every number of bounces (C116_mean_partial), two-sided bounds (C116_bounds_partial) and convergence (C116_limit_partial). Violated as stated: the light sample at the last vertex carries the weight for two techniques although the loop ends, so no path length explains the mean (C116_violated).
* **C117** (The direct and indirect pictures split the light as named): Proved: the exact mean of the direct picture and that both add up (C117_direct_partial). Violated: lamp light found by direction sampling after the first reflection is booked as indirect, for every number of bounces (C117_violated). Conditions as for C116.
* **C118** (Vectors and matrices pass between numpy and the library unchanged): Proved: arrays handed over in row-major order, or contiguous ones, arrive element by element (C118_vector_partial, C118_matrix_partial), wrong shapes are refused (C118_refused_partial), arrays returned by the library come back unchanged (C118_roundtrip_partial). Violated: the parameter type without the c_style flag ignores strides, so a reversed array is read outside of its memory and a column of a matrix arrives as its row (C118_violated).
* **C119** (Images pass between numpy and the library unchanged): Proved for arrays whose height, width and product fit: construction (C119_from_partial), refusal of other shapes (C119_refused_partial), the view (C119_view_partial, C119_distinct_partial) and the round trip (C119_roundtrip_partial). Violated: sizes are computed with int: 65536 x 65536 pixels are written beyond an empty storage and a height of 4294967298 becomes 2 (C119_violated).
* **C120** (A numpy view of an image stays valid while the script holds it): Proved for every script: a held view's storage is alive exactly when its image still uses it, whatever was dropped (C120_alive_partial); only assigning to the bundle, switching the channel and rendering (received power) can take it away, and only from views of that very image (C120_undisturbed_partial, C120_quiet_partial, C120_enable_again_partial); images never share storage (C120_disjoint_partial); nothing leaks (C120_no_leak_partial). Violated: those three statements leave dangling views (C120_violated). Reference counting and keep-alive of pybind11 and numpy are contracts; concurrent rendering is not modelled.
* **C121** (Python quantities keep their physical meaning): Proved: parameters taken through to_si get the same physical quantity, as in C++ (C121_argument_partial, C121_same_as_cpp_partial), sums, differences, scaling, comparisons and times are right (C121_sum_partial, C121_iadd_partial, C121_scale_partial, C121_compare_partial, C121_time_partial), directly bound parameters never misread (C121_direct_partial), other objects are refused (C121_refused_partial), every unit is its own class (C121_classes_partial). Violated: no operator looks at the dimension (C121_dimension_violated), the registered implicit conversions never succeed (C121_implicit_violated), + and += differ for Celsius (C121_celsius_violated). Real numbers; units with the right factor (C61).
* **C122** (Positions, orientations and spins from SPICE mean what SPICE says): CSPICE is a parameter (its frames are rotations that vary differentiably, its state matrices are as documented). Proved: states (C122_state), orientations (C122_orientation), the spin up to one rotation too many (C122_rate_partial) and its size (C122_speed_partial). Violated: the angular velocity of xf2rav, already in parent components, is rotated from local to parent once more, so a body spinning about the parent's x axis is reported to spin about y (C122_violated).
* **C124** (SPICE calls may be made from several threads): Proved: every schedule when no routine fails (C124_no_failure_partial); calls that do not overlap, with failures (C124_serial_partial). Violated: nothing locks the error status of CSPICE; a failing call can return a value nothing computed, a good call can throw another call's error (C124_violated, C124_violated_others). Steps are atomic, so the model is kinder than the code.
* **C126** (What lies between a point and a light dims it once, and equally for shadow rays and for paths): Proved: mean (C126_mean), range (C126_range), blocking (C126_blocked), and exactly when shadow rays and paths agree (C126_agree_iff). Violated: shadow rays use the opacity only, while paths multiply by the transmission of the BSDF, so a transmissive pane (C126_pane_violated) and the boundary of a cloud with the default transmission (C126_cloud_violated) dim the two differently.
* **C127** (Models can be used whatever was deleted before): Proved for every reachable scene: set_all_bsdfs (C127_set_all), lookup (C127_find), instances of the scene graph exist (C127_instances), exactly when a destroyed object is read (C127_crash_iff), programs that never delete a primitive of a living model (C127_careful_partial), deleting a mesh deletes exactly the primitives that use it (C127_delete_geometry). Violated: delete_primitive looks for instances in the scene graph only, so a primitive of a model in the scene can be deleted and the next render reads it (C127_violated).
* **C128** (Pixels cover the field of view and their powers are the powers received): Solid angle is Huira.Sampling.sphereAll (surface measure of the sphere). Proved for lenses without distortion: the solid angle of a pixel is exactly that of the directions projecting into it (C128_solid_angle), the pixels add up to the field of view (C128_sum), the power lies between the extreme cosines over the pixel (C128_power_partial). Violated: the cosine is taken at one corner of the pixel (C128_violated). Not covered: lenses with distortion, where the code replaces the curved pixel by a straight-edged one; rounding.
* **C129** (FITS metadata come back): CFITSIO is a contract (cards of 80 columns, printing with 10 and 6 digits, update or append, cutting of commentary) stated in ImageIO/FitsHeader. Proved for all metadata with sensible custom names: exactly what comes back (C129_read), unchanged apart from comments when numbers have few figures and a coordinate system is whole (C129_partial), numbers (C129_double, C129_double_error), layout keywords (C129_structural). Violated: CFITSIO's own two comments are read as the user's (C129_violated, C129_comments) and accumulate with every generation (C129_grows); numbers of more than eleven figures are cut (C129_violated_double: a Julian date loses seconds); parts of a coordinate system without axis 1 are dropped (C129_violated_wcs); a custom keyword can replace NAXIS1 (C129_violated_structural).
* **C131** (A normal map tilts the surface as painted): Proved for pictures whose colours around the point have more than one half of blue, the tangent space normal maps: direction and factor (C131_texture_partial, C131_texel_partial), a normal for every size and coordinate on the outer side with an orthonormal frame (C131_defined_partial), flat pictures (C131_flat_partial), factor zero (C131_off_partial). Violated for other pictures: a mid-grey pixel is normalised to NaN, which spreads to all points between it and its neighbours, and to the centres of neighbours where its weight is zero (C131_grey, C131_violated); opposite normals meet in NaN (C131_violated_opposite). No colour of eight bits per channel is flat (C131_byte). Exact reals.
* **C133** (The printed graph shows the scene): Layout proved for every reachable scene (C133_layout). With names and SPICE strings free of line breaks the text determines the tree, the kinds, the assets other than primitives, and the printed SPICE text of the frames (C133_read_back_partial, C133_spice_partial). Violated: an instance of a primitive does not show which one (C133_violated), a lone SPICE origin and a lone SPICE frame look the same (C133_violated_spice), line breaks in names draw nodes that do not exist (C133_violated_names). Colours are off (standard error is not a terminal).
* **C134** (The depth channel holds distances from the camera): Exact if the first surface every camera ray meets is opaque (C134_opaque_partial). In general the depth is the length of the last leg, measured from the last surface that was passed (C134_last_leg), so it never lies behind the true one and is infinite for exactly the right pixels (C134_not_behind_partial). Violated: behind a transparent window (C134_violated); the disc of a light has no depth (C134_lights)..
* **C135** (Normals, albedo and ids describe what is seen): All channels characterised (C135_channels, C135_background, C135_ids); normals of flat pixels and albedo without NaN samples are right (C135_flat_partial, C135_albedo_partial). Violated: world normals are turned by the inverse of the camera pose (C135_world_violated, exactly right iff the pose is an involution, C135_world_iff), dropped NaN samples still add their albedo (C135_albedo_violated), every body has id 0 (C135_ids_violated), background normals are NaN (C135_background).
* **C136** (Bodies hide the point sources behind them): Exact with the depth channel, strictly inside the picture, for sources behind everything in their pixel (C136_partial), and for the whole picture of stars drawn with a kernel (C136_stars_partial). Violated: without the channel bodies hide nothing, with it they hide sources in front of them, and the bottom edge is read outside the image (C136_violated, C136_edges); discs of lights hide nothing (C136_lights).
* **C137** (Fully transparent surfaces are invisible): Exact for everything at a finite distance (C137_finite_partial) and for closed, properly nested bodies in front of anything (C137_closed_partial); for the background exactly if no medium stays on the stack (C137_background_iff). Violated: a single open sheet in front of the background makes every sample NaN (C137_sheet_lost, C137_violated) and a pixel all of whose samples pass it NaN (C137_pixel_lost); the same for any thin medium (C137_thin_lost).
* **C139** (A render works for every choice of channels and camera, and its pictures follow from the light received): Violated: received power enabled without the sensor response makes the readout write outside a picture (C139_violated_channels); convolution switched on without a PSF reads a null pointer (C139_violated_psf). C139_undefined_iff_partial says these are the only cases. The scatter settings have no effect on any picture (C139_scatter_ignored); switching received power off leaves a blank sensor response (C139_blank_sensor).
* **C140** (Point sources appear where a surface in the same direction would): Violated: surfaces treat pixel X as the interval from X to X+1, sources as the point X, so a star at the centre of a pixel is drawn in the next one (C140_violated) and blurred stars are displaced by half a pixel, less at most one sub-pixel step, right and down (C140_shift). Proved: exactly when a source lands in its pixel, and the exact point around which PSF and defocus pictures are drawn. Pinhole cameras.
* **C141** (Python datetimes and times stand for the same moments): Violated: microseconds are rounded to milliseconds on the way back (C141_violated_micro); a time inside a leap second cannot be converted (C141_back). Offsets other than zero are not applied but sent to SPICE as text, so that part holds exactly when SPICE reads such texts right or refuses them (C141_zone_partial). Proved in full: naive and UTC objects, whole milliseconds, the nearest millisecond otherwise. Trusted: Python's isoformat and fromisoformat, SPICE reading plain UTC texts and printing the nearest millisecond.
* **C142** (Images are values): Violated: an image that was moved away keeps its width and height without its pixels, so using it is undefined (C142_violated_moved); two negative sizes are accepted and the product of the sizes overflows int (C142_violated_sizes). Proved: every program that keeps clear of these runs as its pictures say (C142_partial), exactly which sizes are accepted (C142_sizes), channels (C142_channel). Negative coordinates are the subject of C17.
* **C144** (A view shows objects at their distances): Violated for a camera whose instance or ancestors are scaled: a uniform factor k divides all distances by k (C144_scaled_partial: exactly right for |k| = 1), a non-uniform one also changes directions (C144_violated_direction). Proved for unscaled cameras, all objects, nested models and modes (C144_partial).
* **C145** (Objects and stars move together): Violated in TRUE_STATE and GEOMETRIC_STATE: stars are always displaced by aberration, nodes are not; they stay together exactly when the camera rests or moves along the direction (C145_other_modes_partial). Proved for ABERRATED_STATE (C145_aberrated_partial).
* **C146** (Ids identify objects): Violated: a moved object gets id 0 (C146_violated_move), and the counter is not atomic, so objects constructed at the same time by two threads can get the same id (C146_violated_threads). Proved for every history without moves and overlapping constructions (C146_partial, C146_counts).
* **C149** (Readouts are repeatable): Violated: the generator is a static variable, so the second readout of the same picture differs (C149_violated). Proved: the value of every pixel (C149_value_partial), its range for every generator (C149_range_partial), repeatability without noise (C149_quiet_partial) and that with noise only the sizes of the earlier noisy readouts matter, never their scenes or settings (C149_history_partial). Concurrent readouts (a data race) are left out.
* **C150** (Scenes in one process do not disturb each other's names): Violated: set_name accepts a handle of another scene, renames the object under its own scene's feet and can make an unrelated object of the scene called unfindable (C150_violated_rename). Proved for every history in which objects are renamed only by their own scene (C150_partial, C150_found_partial, C150_frame_partial, C150_foreign_delete_partial); lookups of other scenes never change, whatever the handle (C150_lookups).
* **C151** (Nothing a scene shows disappears behind its back): Violated: a primitive of another scene may be instantiated, and its own scene then deletes it although it is shown, leaving a dangling pointer (C151_violated_instance); a geometry of another scene may be used, and goes while the primitive stays, or the primitive goes and the call throws (C151_violated_geometry). Proved for every history in which scenes are given only their own objects (C151_partial); a deletion never touches other scenes (C151_others_partial).
* **C152** (Reflecting objects are lit by the sun they were given): Violated only when scenes are mixed: an object whose sun is shown in another scene makes the render throw, no earlier call complains (C152_violated_elsewhere); only the address of the light is compared, so a light that takes the place of a deleted one is mistaken for it (C152_violated_reused). Proved for every history that gives each scene its own objects only, with any allocator (C152_partial, C152_sun_stays_partial); what is accepted and that failures change nothing (C152_accepted, C152_frame).
* **C153** (A crash leaves its report and ends the program): Violated: with the handler disabled a faulting instruction is executed again for ever (C153_violated, C153_end says exactly when a signal ends the process); a buffer smaller than the crash message loses its beginning, the announcement of the crash (C153_violated_small); a full disk is not noticed (C153_violated_disk). Proved: the open scopes are exactly those around the crash point (C153_scopes), the end of the report for every buffer size (C153_report_partial, C153_lines), uncaught exceptions (C153_exception_partial), files (C153_file_partial). One crashing thread (several: C32); fewer than 2^64 log calls.
* **C154** (Formulas with units mean what they say): Violated for sums, multiples and negatives held in degrees Celsius or Fahrenheit (C154_violated). Proved for every other formula by induction over formulas (C154_partial, C154_number_partial, C154_compare_partial, C154_unit_partial). Exact reals; overflow of std::ratio is a compile error and not modelled.
* **C156** (Points of light are blurred as the camera is set up): Violated: the disc is not recomputed by set_fstop, set_focal_length, sensor and intrinsics calls (C156_violated_fstop), a new aperture forgets the focus (C156_new_aperture), the aperture's function is not remade for a new sensor, aperture or intrinsic matrix (C156_violated_sensor), use_aperture_psf(false) removes a user's own function (C156_violated_off). Proved: exactly which disc and function are in use after every history (C156_disc_stale, C156_psf_stale, C156_own_partial), and that they are the right ones when focus and f-stop are set last (C156_partial).
* **C158** (Views live as long as they are needed, and no longer): Violated: SceneView has a destructor releasing a raw Embree scene but no copy or move operations of its own, so a copy, a move or a vector of views leads to use after free and double release (C158_violated_copy), a = SceneView(...) leaves a with a freed scene and loses the old one (C158_violated_assign), and a construction that throws loses its scene (C158_violated_failed). Proved for every history without copies, moves and assignments: nothing dangles in any order of ending (C158_partial) and everything is freed (C158_freed_partial).
* **C159** (Views of one scene can be made in several threads): Violated: blas() tests and resets a mutable pointer without a lock; whenever two threads begin with the same geometry that no view showed yet, a schedule makes one instance what the other freed (C159_violated_race). Proved under every schedule: safe and complete if each geometry not shown before is shown by one of the threads only (C159_partial), in particular after a first view of everything (C159_prepared_partial).
* **C160** (A view shows the scene as it was when the view was made): Violated: cameras (except the sensor's rotation), materials and the irradiance of point sources are shared with the scene: later settings change earlier views (C160_violated_camera, C160_violated_material), and a second view of a moved resolved point source changes its brightness in the first (C160_violated_view). Proved for every history: poses, background and stars are kept (C160_kept_partial), and the whole picture is kept by every history that does not touch the shared settings (C160_partial).
* **C162** (Arithmetic with a resolution is componentwise in the operand's type): Violated: s/res is computed as res/s for every operand (C162_violated_number), and res/v and res/s return float whatever the operand's type (C162_violated). Proved: products for every type, res/v and res/s for float, v/res for every type, and the bound on what narrowing loses.
* **C163** (The printed lists show the assets of the scene): Violated: no line ends after an asset, so a list of any number of assets is one line (C163_violated, C163_one_line_partial), and names with dashes make different scenes print the same (C163_violated_names). Proved for every history: the number is right, each asset is shown once with the name the scene knows it by, in order (C163_partial), names without dashes can be read back (C163_read_back_partial), and so can the numbers of print_contents (C163_contents).
* **C164** (Pruning removes exactly the assets the scene graph does not show): Violated by every scene with an asset to prune: the function's body is empty (C164_violated). It holds exactly of scenes with nothing to prune (C164_partial), and nothing shown is removed (C164_safe_partial).
* **C165** (Every function of the Python interface can be called): Violated: types such as Vec3<float>, Mat3<float>, Vec2<float>, Resolution and NodeHandle have no Python class, so every call that takes or gives one raises TypeError (C165_violated). Proved: which signatures can be called, for all signatures (C165_signature_partial), and that exactly the listed functions cannot (C165_partial).
* **C166** (A Python script can trace any ray): Violated by every ray but the default one (C166_violated): every ray any script ever holds is the default ray (C166_partial).
* **C167** (The text of an image in Python names its class and size): Violated by the images of rendered spectra: their repr reads the characters of a string destroyed during the import (C167_violated). Proved for the common image classes after every history (C167_partial), and that a list of bindings satisfies it exactly if none is spectral (C167_exactly_partial).
* **C168** (A sensor made from a configuration obeys the rules of its setters): Violated: the constructor checks only the resolution and the sign of the pixel size, so any other values, NaN included, make a sensor (C168_violated), whose pictures can be NaN (C168_violated_picture). Proved: allowed configurations are accepted unchanged, negative resolutions and pixels that are not positive are refused, the resolution stays allowed (C168_partial); and after every history a value is allowed exactly if it was at first or its setter was given an allowed one (C168_repair).
* **C169** (Converting a picture between linear and sRGB changes its colours and nothing else): Violated by exactly the pictures of another bit depth or exponent than the default, or made by a sensor: the results always have 8 bits, exponent 1 and no sensor depth (C169_violated), so a 16-bit picture is written with 8. Proved for pictures of every size: every channel of every pixel is converted, size and transparency kept, Python's functions agree (C169_partial), and converting there and back gives the colours again outside the gap of C28 (C169_back_partial).
* **C170** (The help of a command shows its options as they are typed): Violated by every option with only a long name, which is shown as if given by position (C170_violated). Proved for every list of arguments: every line is printed, no padding is negative, the descriptions are aligned (C170_partial); which arguments are shown right (C170_which), and that those of both commands are (C170_plain_partial, C170_commands_partial).

Fully proved, as stated: C02, C04, C10, C11, C12, C14, C16, C24, C27, C29, C31, C34, C37, C43, C44, C45, C47, C52, C53, C57, C60, C62, C63, C71, C73, C76, C80, C81, C82, C86, C87, C88, C91, C92, C101, C107, C114, C123, C125, C130, C132, C138, C143, C147, C148, C155, C157, C161.

