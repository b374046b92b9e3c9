import Mathlib.Tactic.Linarith

/-!
# Calling the library from Python (C165, C166)

Models how pybind11 takes the arguments of a call and gives back its result, for the functions bound in
`bindings/python/include/huira/render/ray_py.ipp`, `render/interaction_py.ipp`, `scene/scene_view_py.ipp`,
`handles/camera_handle_py.ipp`, `handles/materials/texture_handle_py.ipp`, `handles/scene/node_handle_py.ipp`,
`core/types_py.ipp` 25-44, 70-90, 113-128 and the constructors with a colour and `fill` of `images/image_py.ipp` 42-45, 190.

A class of C++ is known to Python when some `py::class_` registers it. An argument of a class loads from an instance of that class
only, and a result of a class that is not registered raises `TypeError`; numbers, texts, pairs, optionals and vectors have their own
conversions (`pybind11/stl.h`). A Python object of a class that is not registered does not exist.

Simplifications: one spectral type; values are seen as their types; derived handle classes are not used where a base is expected;
a result that is a vector or an optional is either empty or full; the functions themselves do not throw.
-/
set_option linter.unusedSimpArgs false
namespace Huira.PyBind.Callable

/-- The C++ classes in the signatures of the functions below. -/
inductive Cls
  | vec3d | mat3d | quatd | shuster | rotation
  | vec3f | vec2f | mat3f | resolution | nodeHandle | mediumStack | sampler
  | ray | hit | interaction | sceneView | scene | interval | instanceHandle | observationMode | time | second
  | cameraHandle | frameBuffer | meter | millimeter | diopter | brown | opencv | owen | spectral
  | textureHandle | frameHandle | imageVec3f
deriving DecidableEq

/-- The classes some `py::class_` (or `py::enum_`) registers: types_py.ipp 25, 70, 113, 168, rotation_py.ipp, ray_py.ipp 16, 38,
interaction_py.ipp 16, scene_view_py.ipp 18, scene_py.ipp, interval_py.ipp, instance_handle_py.ipp 16, huira_module.cpp 127-130,
time_py.ipp, units_py.ipp, camera_handle_py.ipp, frame_buffer_py.ipp, distortion_coeffs_py.ipp 17-90, spectral_bins_py.ipp 20,
texture_handle_py.ipp 18, frame_handle_py.ipp, image_py.ipp 475. No file registers `Vec3<float>`, `Vec2<float>`, `Mat3<float>`,
`Resolution`, `NodeHandle`, the stack of media or the samplers. -/
def registered : Cls → Bool
  | .vec3f | .vec2f | .mat3f | .resolution | .nodeHandle | .mediumStack | .sampler => false
  | _ => true

/-- The types of arguments and results. -/
inductive Ty
  | cls (c : Cls)
  | num | int | bool | str | obj | unit
  | pair (a b : Ty)
  | opt (t : Ty)
  | vec (t : Ty)
deriving DecidableEq

/-- Python objects. -/
inductive PyVal
  | none | int | float | bool | str
  | inst (c : Cls)
  | nil
  | cons (a b : PyVal)

/-- The object can exist: its class and those of its elements are registered. -/
def PyVal.Real : PyVal → Prop
  | .inst c => registered c = true
  | .cons a b => a.Real ∧ b.Real
  | _ => True

/-- All elements of a sequence satisfy `p`. -/
def allOf (p : PyVal → Bool) : PyVal → Bool
  | .nil => true
  | .cons a b => p a && allOf p b
  | _ => false

/-- `type_caster<T>::load` (pybind11). -/
def loads : Ty → PyVal → Bool
  | .cls c, .inst d => registered c && decide (c = d)
  | .num, .int | .num, .float | .num, .bool => true
  | .int, .int | .int, .bool => true
  | .bool, .bool => true
  | .str, .str => true
  | .obj, _ => true
  | .pair a b, .cons x (.cons y .nil) => loads a x && loads b y
  | .opt _, .none => true
  | .opt t, v => loads t v
  | .vec t, v => allOf (loads t) v
  | _, _ => false

/-- What the function returned, where it matters: whether its vectors and optionals are empty. -/
inductive Result
  | empty | full
deriving DecidableEq

/-- `type_caster<T>::cast` (pybind11) of a result. -/
def casts : Ty → Result → Bool
  | .cls c, _ => registered c
  | .pair a b, r => casts a r && casts b r
  | .opt _, .empty => true
  | .opt t, .full => casts t .full
  | .vec _, .empty => true
  | .vec t, .full => casts t .full
  | _, _ => true

/-- A bound function: the object it is called on is its first argument. -/
structure Fn where
  name : String
  args : List Ty
  ret : Ty
deriving DecidableEq

/-- What a call does. -/
inductive Outcome
  | typeError | done
deriving DecidableEq

/-- All arguments load. -/
def loadAll : List Ty → List PyVal → Bool
  | [], [] => true
  | t :: ts, v :: vs => loads t v && loadAll ts vs
  | _, _ => false

/-- A call with these Python objects, of which the function makes `r`. -/
def call (f : Fn) (vals : List PyVal) (r : Result) : Outcome :=
  if loadAll f.args vals && casts f.ret r then .done else .typeError

/-- A property read and, unless read-only, written. -/
def prop (c : Cls) (name : String) (t : Ty) : List Fn := [⟨name, [.cls c], t⟩, ⟨name ++ " =", [.cls c, t], .unit⟩]

/-- ray_py.ipp 16-51. -/
def rayFns : List Fn :=
  [⟨"Ray()", [], .cls .ray⟩, ⟨"Ray(origin, direction)", [.cls .vec3f, .cls .vec3f], .cls .ray⟩,
   ⟨"Ray.origin", [.cls .ray], .cls .vec3f⟩, ⟨"Ray.direction", [.cls .ray], .cls .vec3f⟩,
   ⟨"Ray.reciprocal_direction", [.cls .ray], .cls .vec3f⟩, ⟨"Ray.at", [.cls .ray, .num], .cls .vec3f⟩,
   ⟨"Ray.__repr__", [.cls .ray], .str⟩, ⟨"HitRecord()", [], .cls .hit⟩] ++
  prop .hit "HitRecord.t" .num ++ prop .hit "HitRecord.u" .num ++ prop .hit "HitRecord.v" .num ++
  prop .hit "HitRecord.inst_id" .int ++ prop .hit "HitRecord.geom_id" .int ++ prop .hit "HitRecord.prim_id" .int ++
  prop .hit "HitRecord.Ng" (.cls .vec3f) ++ [⟨"HitRecord.hit", [.cls .hit], .bool⟩, ⟨"HitRecord.__repr__", [.cls .hit], .str⟩]

/-- interaction_py.ipp 16-36. -/
def interactionFns : List Fn :=
  [⟨"Interaction()", [], .cls .interaction⟩] ++ prop .interaction "Interaction.position" (.cls .vec3f) ++
  prop .interaction "Interaction.normal_g" (.cls .vec3f) ++ prop .interaction "Interaction.normal_s" (.cls .vec3f) ++
  prop .interaction "Interaction.tangent" (.cls .vec3f) ++ prop .interaction "Interaction.bitangent" (.cls .vec3f) ++
  prop .interaction "Interaction.uv" (.cls .vec2f) ++ prop .interaction "Interaction.wo" (.cls .vec3f) ++
  prop .interaction "Interaction.vertex_albedo" (.cls .spectral) ++ [⟨"Interaction.__repr__", [.cls .interaction], .str⟩]

/-- scene_view_py.ipp 18-75. -/
def viewFns : List Fn :=
  [⟨"SceneView()", [.cls .scene, .cls .interval, .cls .instanceHandle, .cls .observationMode, .int], .cls .sceneView⟩,
   ⟨"SceneView.intersect", [.cls .sceneView, .cls .ray, .num, .int], .cls .hit⟩,
   ⟨"SceneView.evaluate_transmittance", [.cls .sceneView, .cls .ray, .num, .cls .mediumStack, .cls .sampler, .num], .cls .spectral⟩,
   ⟨"SceneView.resolve_hit", [.cls .sceneView, .cls .ray, .cls .hit], .cls .interaction⟩,
   ⟨"SceneView.intersect_batch", [.cls .sceneView, .vec (.cls .ray), .num], .vec (.cls .hit)⟩,
   ⟨"SceneView.resolve_hits_batch", [.cls .sceneView, .vec (.cls .ray), .vec (.cls .hit)], .vec (.cls .interaction)⟩,
   ⟨"SceneView.get_exposure_interval", [.cls .sceneView], .cls .interval⟩, ⟨"SceneView.duration", [.cls .sceneView], .cls .second⟩,
   ⟨"SceneView.get_time", [.cls .sceneView], .cls .time⟩, ⟨"SceneView.get_start_time", [.cls .sceneView], .cls .time⟩,
   ⟨"SceneView.get_end_time", [.cls .sceneView], .cls .time⟩, ⟨"SceneView.__repr__", [.cls .sceneView], .str⟩]

/-- camera_handle_py.ipp 31-209; `py::object` arguments go through `unit_from_py` (C121). -/
def cameraFns : List Fn :=
  [⟨"configure_sensor_from_pitch", [.cls .cameraHandle, .pair .int .int, .obj, .obj, .opt .num, .opt .num], .unit⟩,
   ⟨"configure_sensor_from_size", [.cls .cameraHandle, .pair .int .int, .obj, .obj, .opt .num, .opt .num], .unit⟩,
   ⟨"set_intrinsic_matrix", [.cls .cameraHandle, .cls .mat3f, .pair .int .int, .obj], .unit⟩,
   ⟨"set_intrinsics", [.cls .cameraHandle, .num, .num, .num, .num, .pair .int .int, .obj], .unit⟩,
   ⟨"set_brown_conrady_distortion", [.cls .cameraHandle, .cls .brown], .unit⟩,
   ⟨"set_opencv_distortion", [.cls .cameraHandle, .cls .opencv], .unit⟩,
   ⟨"set_owen_distortion", [.cls .cameraHandle, .cls .owen], .unit⟩, ⟨"delete_distortion", [.cls .cameraHandle], .unit⟩,
   ⟨"set_sensor_quantum_efficiency(double)", [.cls .cameraHandle, .num], .unit⟩,
   ⟨"set_sensor_quantum_efficiency(spectral)", [.cls .cameraHandle, .cls .spectral], .unit⟩,
   ⟨"set_sensor_full_well_capacity", [.cls .cameraHandle, .num], .unit⟩, ⟨"set_sensor_simulate_noise", [.cls .cameraHandle, .bool], .unit⟩,
   ⟨"set_sensor_read_noise", [.cls .cameraHandle, .num], .unit⟩, ⟨"set_sensor_dark_current", [.cls .cameraHandle, .num], .unit⟩,
   ⟨"set_sensor_bias_level", [.cls .cameraHandle, .num], .unit⟩, ⟨"set_sensor_bit_depth", [.cls .cameraHandle, .int], .unit⟩,
   ⟨"set_sensor_gain", [.cls .cameraHandle, .num], .unit⟩, ⟨"set_sensor_gain_db", [.cls .cameraHandle, .num], .unit⟩,
   ⟨"set_sensor_uinty_db", [.cls .cameraHandle, .num], .unit⟩, ⟨"set_sensor_rotation", [.cls .cameraHandle, .obj], .unit⟩,
   ⟨"use_aperture_psf(bool)", [.cls .cameraHandle, .bool], .unit⟩, ⟨"use_aperture_psf(int, int)", [.cls .cameraHandle, .int, .int], .unit⟩,
   ⟨"enable_psf_convolution", [.cls .cameraHandle, .bool], .unit⟩, ⟨"delete_psf", [.cls .cameraHandle], .unit⟩,
   ⟨"enable_depth_of_field", [.cls .cameraHandle, .bool], .unit⟩, ⟨"set_focus_distance", [.cls .cameraHandle, .obj], .unit⟩,
   ⟨"get_focus_distance", [.cls .cameraHandle], .cls .meter⟩, ⟨"set_diopters", [.cls .cameraHandle, .obj], .unit⟩,
   ⟨"get_diopters", [.cls .cameraHandle], .cls .diopter⟩, ⟨"make_frame_buffer", [.cls .cameraHandle], .cls .frameBuffer⟩,
   ⟨"use_blender_convention", [.cls .cameraHandle, .bool], .unit⟩]

/-- node_handle_py.ipp 26-148, for frames and instances. -/
def nodeFns (c : Cls) : List Fn :=
  [⟨"set_position", [.cls c, .obj, .obj, .obj], .unit⟩, ⟨"get_static_position", [.cls c], .cls .vec3d⟩,
   ⟨"set_velocity", [.cls c, .obj, .obj, .obj], .unit⟩, ⟨"get_static_velocity", [.cls c], .cls .vec3d⟩,
   ⟨"set_rotation", [.cls c, .cls .rotation], .unit⟩, ⟨"set_rotation_local_to_parent(matrix)", [.cls c, .cls .mat3d], .unit⟩,
   ⟨"set_rotation_local_to_parent(quaternion)", [.cls c, .cls .quatd], .unit⟩,
   ⟨"set_rotation_local_to_parent(axis, angle)", [.cls c, .cls .vec3d, .obj], .unit⟩,
   ⟨"set_rotation_parent_to_local(matrix)", [.cls c, .cls .mat3d], .unit⟩,
   ⟨"set_rotation_parent_to_local(quaternion)", [.cls c, .cls .quatd], .unit⟩,
   ⟨"set_rotation_parent_to_local(axis, angle)", [.cls c, .cls .vec3d, .obj], .unit⟩,
   ⟨"set_euler_angles", [.cls c, .obj, .obj, .obj, .str], .unit⟩, ⟨"get_static_rotation", [.cls c], .cls .rotation⟩,
   ⟨"set_angular_velocity", [.cls c, .obj, .obj, .obj], .unit⟩, ⟨"get_static_angular_velocity", [.cls c], .cls .vec3d⟩,
   ⟨"set_scale(sx, sy, sz)", [.cls c, .num, .num, .num], .unit⟩, ⟨"set_scale(s)", [.cls c, .num], .unit⟩,
   ⟨"get_static_scale", [.cls c], .cls .vec3d⟩, ⟨"set_spice_origin", [.cls c, .str], .unit⟩,
   ⟨"set_spice_frame", [.cls c, .str], .unit⟩, ⟨"set_spice", [.cls c, .str, .str], .unit⟩,
   ⟨"get_spice_origin", [.cls c], .str⟩, ⟨"get_spice_frame", [.cls c], .str⟩, ⟨"get_parent", [.cls c], .cls .nodeHandle⟩]

/-- types_py.ipp 26-27, 71-74, 115-120, 170-175, image_py.ipp 40-45, 190 for `Image_Vec3f`, texture_handle_py.ipp 19-21. -/
def otherFns : List Fn :=
  [⟨"Vec3()", [], .cls .vec3d⟩, ⟨"Vec3(x, y, z)", [.num, .num, .num], .cls .vec3d⟩, ⟨"Mat3()", [], .cls .mat3d⟩,
   ⟨"Mat3(diagonal)", [.num], .cls .mat3d⟩, ⟨"Quaternion(w, x, y, z)", [.num, .num, .num, .num], .cls .quatd⟩,
   ⟨"ShusterQuaternion(x, y, z, w)", [.num, .num, .num, .num], .cls .shuster⟩,
   ⟨"Image_Vec3f(width, height)", [.int, .int], .cls .imageVec3f⟩,
   ⟨"Image_Vec3f(width, height, fill_value)", [.int, .int, .cls .vec3f], .cls .imageVec3f⟩,
   ⟨"Image_Vec3f.fill", [.cls .imageVec3f, .cls .vec3f], .unit⟩, ⟨"TextureHandle.resolution", [.cls .textureHandle], .cls .resolution⟩]

/-- All of them. -/
def api : List Fn :=
  rayFns ++ interactionFns ++ viewFns ++ cameraFns ++ nodeFns .frameHandle ++ nodeFns .instanceHandle ++ otherFns

/-! ## Specification -/

/-- Some Python objects can be given to the function so that it gives a result. -/
def CanCall (f : Fn) : Prop := ∃ vals r, (∀ v ∈ vals, v.Real) ∧ call f vals r = .done

/-- C165 in full. -/
def C165_full : Prop := ∀ f ∈ api, CanCall f

/-! ## Which types can be used -/

/-- Some object loads: every class outside optionals, vectors is registered. -/
def usable : Ty → Bool
  | .cls c => registered c
  | .pair a b => usable a && usable b
  | .unit => false
  | _ => true

theorem usable_iff (t : Ty) : (∃ v : PyVal, v.Real ∧ loads t v = true) ↔ usable t = true := by
  induction t with
  | cls c =>
    constructor
    · rintro ⟨v, hr, hl⟩
      cases v <;> simp [loads] at hl
      exact hl.1
    · intro h
      exact ⟨.inst c, h, by simpa [loads, usable] using h⟩
  | num => exact ⟨fun _ => rfl, fun _ => ⟨.float, trivial, rfl⟩⟩
  | int => exact ⟨fun _ => rfl, fun _ => ⟨.int, trivial, rfl⟩⟩
  | bool => exact ⟨fun _ => rfl, fun _ => ⟨.bool, trivial, rfl⟩⟩
  | str => exact ⟨fun _ => rfl, fun _ => ⟨.str, trivial, rfl⟩⟩
  | obj => exact ⟨fun _ => rfl, fun _ => ⟨.none, trivial, by simp [loads]⟩⟩
  | unit =>
    constructor
    · rintro ⟨v, _, hl⟩
      cases v <;> simp [loads] at hl
    · intro h; simp [usable] at h
  | pair a b iha ihb =>
    rw [usable, Bool.and_eq_true, ← iha, ← ihb]
    constructor
    · rintro ⟨v, hr, hl⟩
      rcases v with _ | _ | _ | _ | _ | _ | _ | ⟨x, _ | _ | _ | _ | _ | _ | _ | ⟨y, _ | _ | _ | _ | _ | _ | _ | _⟩⟩ <;>
        simp [loads] at hl
      exact ⟨⟨x, hr.1, hl.1⟩, ⟨y, hr.2.1, hl.2⟩⟩
    · rintro ⟨⟨x, hx, lx⟩, ⟨y, hy, ly⟩⟩
      exact ⟨.cons x (.cons y .nil), ⟨hx, hy, trivial⟩, by simp [loads, lx, ly]⟩
  | opt t _ => exact ⟨fun _ => rfl, fun _ => ⟨.none, trivial, by simp [loads]⟩⟩
  | vec t _ => exact ⟨fun _ => rfl, fun _ => ⟨.nil, trivial, by simp [loads, allOf]⟩⟩

/-- The elements of a Python list. -/
def elements : PyVal → Option (List PyVal)
  | .nil => some []
  | .cons a b => (elements b).map (a :: ·)
  | _ => none

/-- Lists of every length, and nothing else, can be given for a vector, when each element can be given for its type. -/
theorem C165_list_partial (t : Ty) (v : PyVal) : loads (.vec t) v = true ↔ ∃ l, elements v = some l ∧ ∀ x ∈ l, loads t x = true := by
  have key : ∀ v, allOf (loads t) v = true ↔ ∃ l, elements v = some l ∧ ∀ x ∈ l, loads t x = true := by
    intro v
    induction v with
    | nil => simp [allOf, elements]
    | cons a b _ ih =>
      simp only [allOf, elements, Bool.and_eq_true, ih, Option.map_eq_some_iff]
      constructor
      · rintro ⟨ha, l, hl, hx⟩
        exact ⟨a :: l, ⟨l, hl, rfl⟩, List.forall_mem_cons.2 ⟨ha, hx⟩⟩
      · rintro ⟨_, ⟨l, hl, rfl⟩, hx⟩
        obtain ⟨h1, h2⟩ := List.forall_mem_cons.1 hx
        exact ⟨h1, l, hl, h2⟩
    | _ => simp [allOf, elements]
  rw [← key]
  cases v <;> rfl

example : loads (.vec (.cls .ray)) (.cons (.inst .ray) (.cons (.inst .ray) .nil)) = true ∧ loads (.vec (.cls .ray)) (.inst .ray) = false := by
  decide

/-- Some result can be given back. -/
def returnable : Ty → Bool
  | .cls c => registered c
  | .pair a b => returnable a && returnable b
  | _ => true

theorem returnable_iff (t : Ty) : (∃ r, casts t r = true) ↔ returnable t = true := by
  have key : ∀ t, casts t .empty = returnable t ∧ (casts t .full = true → returnable t = true) := by
    intro t
    induction t with
    | pair a b iha ihb =>
      simp only [casts, returnable, iha.1, ihb.1, Bool.and_eq_true, true_and]
      exact fun h => ⟨iha.2 h.1, ihb.2 h.2⟩
    | _ => simp [casts, returnable]
  constructor
  · rintro ⟨r, hr⟩
    cases r
    · rwa [(key t).1] at hr
    · exact (key t).2 hr
  · intro h
    exact ⟨.empty, by rw [(key t).1, h]⟩

theorem loadAll_iff (ts : List Ty) : (∃ vs : List PyVal, (∀ v ∈ vs, v.Real) ∧ loadAll ts vs = true) ↔ ∀ t ∈ ts, usable t = true := by
  induction ts with
  | nil => exact ⟨fun _ t ht => absurd ht List.not_mem_nil, fun _ => ⟨[], by simp, rfl⟩⟩
  | cons t ts ih =>
    rw [List.forall_mem_cons, ← usable_iff, ← ih]
    constructor
    · rintro ⟨vs, hr, hl⟩
      cases vs with
      | nil => simp [loadAll] at hl
      | cons v vs =>
        simp only [loadAll, Bool.and_eq_true] at hl
        rw [List.forall_mem_cons] at hr
        exact ⟨⟨v, hr.1, hl.1⟩, ⟨vs, hr.2, hl.2⟩⟩
    · rintro ⟨⟨v, hv, lv⟩, ⟨vs, hvs, lvs⟩⟩
      exact ⟨v :: vs, List.forall_mem_cons.2 ⟨hv, hvs⟩, by simp [loadAll, lv, lvs]⟩

/-- C165: for every signature, a function can be called exactly if each argument type has a Python object and its result can be given
back. -/
theorem C165_signature_partial (f : Fn) : CanCall f ↔ (∀ t ∈ f.args, usable t = true) ∧ returnable f.ret = true := by
  rw [← loadAll_iff, ← returnable_iff]
  constructor
  · rintro ⟨vals, r, hr, hc⟩
    unfold call at hc
    split at hc
    · next h =>
      rw [Bool.and_eq_true] at h
      exact ⟨⟨vals, hr, h.1⟩, ⟨r, h.2⟩⟩
    · cases hc
  · rintro ⟨⟨vals, hr, hl⟩, ⟨r, hc⟩⟩
    exact ⟨vals, r, hr, by simp [call, hl, hc]⟩

instance (f : Fn) : Decidable (CanCall f) := decidable_of_iff _ (C165_signature_partial f).symm

/-- The functions no script can call. -/
def broken : List String :=
  ["Ray(origin, direction)", "Ray.origin", "Ray.direction", "Ray.reciprocal_direction", "Ray.at", "HitRecord.Ng", "HitRecord.Ng =",
   "Interaction.position", "Interaction.position =", "Interaction.normal_g", "Interaction.normal_g =", "Interaction.normal_s",
   "Interaction.normal_s =", "Interaction.tangent", "Interaction.tangent =", "Interaction.bitangent", "Interaction.bitangent =",
   "Interaction.uv", "Interaction.uv =", "Interaction.wo", "Interaction.wo =", "SceneView.evaluate_transmittance",
   "set_intrinsic_matrix", "get_parent", "Image_Vec3f(width, height, fill_value)", "Image_Vec3f.fill", "TextureHandle.resolution"]

/-- C165: of the bound functions exactly these cannot be called. -/
theorem C165_partial : ∀ f ∈ api, CanCall f ↔ f.name ∉ broken := by decide +kernel

/-- C165 is violated: a call of any of these raises `TypeError`, whatever it is given and whatever it would have returned. -/
theorem C165_violated (f : Fn) (hf : f ∈ api) (hb : f.name ∈ broken) (vals : List PyVal) (hv : ∀ v ∈ vals, v.Real) (r : Result) :
    call f vals r = .typeError := by
  cases hc : call f vals r with
  | typeError => rfl
  | done => exact absurd hb ((C165_partial f hf).1 ⟨vals, r, hv, hc⟩)

theorem C165_violated_full : ¬ C165_full := fun h => by
  have := (C165_partial ⟨"get_parent", [.cls .frameHandle], .cls .nodeHandle⟩ (by decide)).1 (h _ (by decide))
  exact this (by decide)

example : ⟨"set_intrinsic_matrix", [.cls .cameraHandle, .cls .mat3f, .pair .int .int, .obj], .unit⟩ ∈ api := by decide

/-- The matrix Python knows does not help. -/
example : call ⟨"set_intrinsic_matrix", [.cls .cameraHandle, .cls .mat3f, .pair .int .int, .obj], .unit⟩
    [.inst .cameraHandle, .inst .mat3d, .cons .int (.cons .int .nil), .inst .millimeter] .full = .typeError := by decide

example : call ⟨"set_intrinsics", [.cls .cameraHandle, .num, .num, .num, .num, .pair .int .int, .obj], .unit⟩
    [.inst .cameraHandle, .float, .float, .int, .int, .cons .int (.cons .int .nil), .inst .millimeter] .full = .done := by decide

/-! ## Rays in scripts (C166) -/

/-- A ray: origin and direction (geometry/ray.hpp 33-35). -/
structure RayVal where
  origin : Int × Int × Int
  direction : Int × Int × Int
deriving DecidableEq

/-- `Ray()` (geometry/ray.hpp 13, 33-34). -/
def defaultRay : RayVal := ⟨(0, 0, 0), (0, 0, -1)⟩

/-- One step of a script: a call of a bound function with objects, and what the function would make of them. -/
structure Call where
  fn : Fn
  vals : List PyVal
  result : Result
  made : RayVal

/-- The types a ray can be part of. -/
def Ty.hasRay : Ty → Bool
  | .cls c => decide (c = .ray)
  | .pair a b => a.hasRay || b.hasRay
  | .opt t | .vec t => t.hasRay
  | _ => false

/-- The rays a script holds after a call. `Ray()` gives the default ray; any other function that gives a ray gives some ray. No
bound function changes a ray: its properties are read-only (ray_py.ipp 21-23). -/
def Call.run (held : List RayVal) (c : Call) : List RayVal :=
  match call c.fn c.vals c.result with
  | .typeError => held
  | .done => if c.fn.name = "Ray()" then defaultRay :: held else if c.fn.ret.hasRay then c.made :: held else held

/-- The rays a script holds. -/
def held (script : List Call) : List RayVal := script.foldl Call.run []

/-- A script that can be written: it calls bound functions with objects that exist. -/
def Script (script : List Call) : Prop := ∀ c ∈ script, c.fn ∈ api ∧ ∀ v ∈ c.vals, v.Real

/-- C166 in full: a script can have any ray. -/
def C166_full : Prop := ∀ r : RayVal, ∃ script, Script script ∧ r ∈ held script

theorem makers : ∀ f ∈ api, f.ret.hasRay = true → f.name = "Ray()" ∨ f.name ∈ broken := by decide +kernel

/-- C166: every ray any script ever holds is the default one, so that is the only ray it can trace. -/
theorem C166_partial (script : List Call) (hs : Script script) (r : RayVal) (hr : r ∈ held script) : r = defaultRay := by
  have key : ∀ (l : List RayVal), (∀ r ∈ l, r = defaultRay) → Script script → ∀ r ∈ script.foldl Call.run l, r = defaultRay := by
    clear hr r hs
    induction script with
    | nil => intro l hl _ r hr; exact hl r hr
    | cons c cs ih =>
      intro l hl hs r hr
      refine ih (Call.run l c) ?_ (fun d hd => hs d (List.mem_cons_of_mem _ hd)) r hr
      intro q hq
      obtain ⟨hf, hv⟩ := hs c List.mem_cons_self
      unfold Call.run at hq
      split at hq
      · exact hl q hq
      · next hc =>
        split at hq
        · rcases List.mem_cons.1 hq with h | h
          · exact h
          · exact hl q h
        · next hn =>
          split at hq
          · next hh =>
            rcases makers _ hf hh with h | h
            · exact absurd h hn
            · rw [C165_violated _ hf h _ hv] at hc
              cases hc
          · exact hl q hq
  exact key [] (by simp) hs r hr

/-- C166: it starts at the origin and looks down the negative third axis. -/
theorem C166_values_partial (script : List Call) (hs : Script script) (r : RayVal) (hr : r ∈ held script) :
    r.origin = (0, 0, 0) ∧ r.direction = (0, 0, -1) := by
  rw [C166_partial script hs r hr]
  exact ⟨rfl, rfl⟩

/-- C166 is violated by every other ray. -/
theorem C166_violated (r : RayVal) (hr : r ≠ defaultRay) : ¬ ∃ script, Script script ∧ r ∈ held script :=
  fun ⟨s, hs, hm⟩ => hr (C166_partial s hs r hm)

theorem C166_violated_full : ¬ C166_full := fun h => C166_violated ⟨(0, 0, 0), (1, 0, 0)⟩ (by decide) (h _)

/-- The default ray can be had, after a failed attempt at another. -/
example : Script [⟨⟨"Ray(origin, direction)", [.cls .vec3f, .cls .vec3f], .cls .ray⟩, [.inst .vec3d, .inst .vec3d], .full, ⟨(0, 0, 0), (1, 0, 0)⟩⟩,
      ⟨⟨"Ray()", [], .cls .ray⟩, [], .full, defaultRay⟩] ∧
    held [⟨⟨"Ray(origin, direction)", [.cls .vec3f, .cls .vec3f], .cls .ray⟩, [.inst .vec3d, .inst .vec3d], .full, ⟨(0, 0, 0), (1, 0, 0)⟩⟩,
      ⟨⟨"Ray()", [], .cls .ray⟩, [], .full, defaultRay⟩] = [defaultRay] := by
  refine ⟨?_, by decide⟩
  intro c hc
  simp only [List.mem_cons, List.not_mem_nil, or_false] at hc
  rcases hc with rfl | rfl
  · refine ⟨by decide, ?_⟩
    intro v hv
    simp only [List.mem_cons, List.not_mem_nil, or_false, or_self] at hv
    subst hv
    rfl
  · exact ⟨by decide, by simp⟩

end Huira.PyBind.Callable
