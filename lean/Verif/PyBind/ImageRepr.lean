import Verif.Registry.Lemmas
import Mathlib.Data.List.Forall2

/-!
# The text of an image in Python (C167)

Models the `__repr__` of the image classes: `bind_image` (`bindings/python/include/huira/images/image_py.ipp` 28, 198-203) keeps the
pointer `class_name` it was given in the function it registers, which Python calls later. `bind_common_images`
(image_py.ipp 456-475) gives it literals; `bind_spectral` (`bindings/python/src/huira_module.cpp` 81-82) gives it
`img_name.c_str()` of a local `std::string`, which is destroyed when `bind_spectral` returns.

The model has pointers to literals and pointers into strings; a string's characters can be read while it lives, and reading
them afterwards is undefined (`none`), whatever has been allocated since: a new string is a new object.
-/
set_option linter.unusedSimpArgs false
namespace Huira.PyBind.ImageRepr
open Registry (decimal)

/-- Text. -/
abbrev Text := List Char

/-- A `const char*`. -/
inductive Ptr
  | literal (t : Text)
  | string (id : Nat)

/-- The strings that exist, by identity, the next identity, and the pointers kept by the `__repr__` of each image class. -/
structure State where
  strings : Nat → Option Text
  next : Nat
  kept : List Ptr

/-- Before the module is imported. -/
def start : State := ⟨fun _ => none, 0, []⟩

/-- A new `std::string`. -/
def State.alloc (s : State) (t : Text) : State :=
  { s with strings := fun i => if i = s.next then some t else s.strings i, next := s.next + 1 }

/-- The end of a string. -/
def State.free (s : State) (id : Nat) : State := { s with strings := fun i => if i = id then none else s.strings i }

/-- `bind_image(m, class_name)` (image_py.ipp 28, 36, 198): `py::class_` copies the name, the lambda keeps the pointer. -/
def State.bindImage (s : State) (p : Ptr) : State := { s with kept := s.kept ++ [p] }

/-- How an image class comes to be bound. -/
inductive Binding
  /-- `bind_image<T>(m, "…")` (image_py.ipp 467-475) -/
  | common (name : Text)
  /-- `bind_spectral` for a module of that name (huira_module.cpp 48-49, 81-82) -/
  | spectral (moduleName : Text)

/-- The name of the class: what `py::class_` is given. -/
def Binding.name : Binding → Text
  | .common n => n
  | .spectral m => "Image_".toList ++ m

/-- Binding a class. The local string of `bind_spectral` lives until its end. -/
def State.bind (s : State) : Binding → State
  | .common n => s.bindImage (.literal n)
  | .spectral m =>
    let id := s.next
    ((s.alloc ("Image_".toList ++ m)).bindImage (.string id)).free id

/-- Importing the module: bind the classes, one after the other. -/
def importModule (bs : List Binding) : State := bs.foldl State.bind start

/-- What goes on later: strings come and go. A string is destroyed once, by its owner, if it exists. -/
inductive Later
  | alloc (t : Text)
  | free (id : Nat)

def State.later (s : State) : Later → State
  | .alloc t => s.alloc t
  | .free id => s.free id

/-- The process after the import and a history. -/
def process (bs : List Binding) (h : List Later) : State := h.foldl State.later (importModule bs)

/-- Reading the characters at a pointer. -/
def State.read (s : State) : Ptr → Option Text
  | .literal t => some t
  | .string id => s.strings id

/-- `__repr__` (image_py.ipp 198-203) of an image of class `i`. -/
def repr (s : State) (i : Nat) (width height channels : Nat) : Option Text :=
  match s.kept[i]? with
  | none => none
  | some p => (s.read p).map fun n =>
      n ++ ['('] ++ decimal width ++ ['x'] ++ decimal height ++ ", channels=".toList ++ decimal channels ++ [')']

/-! ## Specification -/

/-- The text: the name of the class, the size and the number of channels. -/
def text (name : Text) (width height channels : Nat) : Text :=
  name ++ ['('] ++ decimal width ++ ['x'] ++ decimal height ++ ", channels=".toList ++ decimal channels ++ [')']

/-- C167 in full, for a list of bindings: after every history, `repr` of an image of each class is that text. -/
def C167_full (bs : List Binding) : Prop :=
  ∀ (h : List Later) (i : Nat) (b : Binding), bs[i]? = some b → ∀ width height channels,
    repr (process bs h) i width height channels = some (text b.name width height channels)

/-- The classes the module binds (image_py.ipp 467-475, huira_module.cpp 133-141); `full` is the name of the module the submodules
are part of. -/
def classes (full : Text) : List Binding :=
  [.common "Image_f32".toList, .common "Image_f64".toList, .common "Image_u8".toList, .common "Image_u16".toList,
   .common "Image_u32".toList, .common "Image_u64".toList, .common "Image_Vec3f".toList,
   .spectral (full ++ ".rgb".toList), .spectral (full ++ ".visible8".toList), .spectral (full ++ ".swir8".toList)]

/-! ## Proof -/

/-- The pointer kept for a binding is to a literal, or to a string that is gone for good. -/
def Fits (s : State) : Binding → Ptr → Prop
  | .common n, .literal t => t = n
  | .spectral _, .string id => s.strings id = none ∧ id < s.next
  | _, _ => False

theorem fits_mono {s s' : State} (hn : s.next ≤ s'.next) (hs : ∀ id, id < s.next → s.strings id = none → s'.strings id = none)
    {b : Binding} {p : Ptr} (h : Fits s b p) : Fits s' b p := by
  cases b <;> cases p <;> simp only [Fits] at h ⊢
  · exact h
  · exact ⟨hs _ h.2 h.1, Nat.lt_of_lt_of_le h.2 hn⟩

theorem alloc_keeps (s : State) (t : Text) : ∀ id, id < s.next → s.strings id = none → (s.alloc t).strings id = none := by
  intro id hi hs
  simp [State.alloc, Nat.ne_of_lt hi, hs]

theorem free_keeps (s : State) (k : Nat) : ∀ id, id < s.next → s.strings id = none → (s.free k).strings id = none := by
  intro id _ hs
  simp only [State.free]
  split
  · rfl
  · exact hs

theorem forall₂_import (bs : List Binding) : ∀ (s : State) (done : List Binding), List.Forall₂ (Fits s) done s.kept →
    List.Forall₂ (Fits (bs.foldl State.bind s)) (done ++ bs) (bs.foldl State.bind s).kept := by
  induction bs with
  | nil => intro s done h; simpa using h
  | cons b bs ih =>
    intro s done h
    have hstep : List.Forall₂ (Fits (s.bind b)) (done ++ [b]) (s.bind b).kept := by
      cases b with
      | common n =>
        simp only [State.bind, State.bindImage]
        refine List.rel_append ?_ (List.Forall₂.cons rfl .nil)
        exact h.imp fun x p hx => fits_mono (Nat.le_refl _) (fun _ _ e => e) hx
      | spectral m =>
        simp only [State.bind, State.bindImage, State.free, State.alloc]
        refine List.rel_append ?_ (List.Forall₂.cons ⟨by simp, Nat.lt_succ_self _⟩ .nil)
        refine h.imp fun x p hx => fits_mono (Nat.le_succ _) (fun id hi e => ?_) hx
        simp [Nat.ne_of_lt hi, e]
    have := ih (s.bind b) (done ++ [b]) hstep
    simpa using this

theorem forall₂_process (bs : List Binding) (h : List Later) : List.Forall₂ (Fits (process bs h)) bs (process bs h).kept := by
  have h0 : List.Forall₂ (Fits (importModule bs)) bs (importModule bs).kept := by
    simpa [importModule] using forall₂_import bs start [] .nil
  unfold process
  generalize importModule bs = s at h0
  induction h generalizing s with
  | nil => exact h0
  | cons op ops ih =>
    refine ih (s.later op) ?_
    cases op with
    | alloc t => exact h0.imp fun x p hx => fits_mono (Nat.le_succ _) (alloc_keeps s t) hx
    | free id => exact h0.imp fun x p hx => fits_mono (s' := s.free id) (Nat.le_refl s.next) (free_keeps s id) hx

theorem kept_at (bs : List Binding) (h : List Later) (i : Nat) (b : Binding) (hb : bs[i]? = some b) :
    ∃ p, (process bs h).kept[i]? = some p ∧ Fits (process bs h) b p := by
  have hf := forall₂_process bs h
  obtain ⟨hi, he⟩ := List.getElem?_eq_some_iff.1 hb
  have hl := hf.length_eq
  refine ⟨(process bs h).kept[i]'(hl ▸ hi), List.getElem?_eq_getElem _, ?_⟩
  have := List.Forall₂.get hf hi (hl ▸ hi)
  simpa [he] using this

/-- C167: the common classes show their name and size after every history. -/
theorem C167_partial (bs : List Binding) (h : List Later) (i : Nat) (n : Text) (hb : bs[i]? = some (.common n)) (width height channels : Nat) :
    repr (process bs h) i width height channels = some (text n width height channels) := by
  obtain ⟨p, hp, hf⟩ := kept_at bs h i _ hb
  cases p <;> simp only [Fits] at hf
  subst hf
  simp [repr, hp, State.read, text]

/-- C167 is violated by every spectral class, after every history: `repr` reads a string that is gone. -/
theorem C167_violated (bs : List Binding) (h : List Later) (i : Nat) (m : Text) (hb : bs[i]? = some (.spectral m)) (width height channels : Nat) :
    repr (process bs h) i width height channels = none := by
  obtain ⟨p, hp, hf⟩ := kept_at bs h i _ hb
  cases p <;> simp only [Fits] at hf
  simp [repr, hp, State.read, hf.1]

/-- C167 holds of a list of bindings exactly if none is spectral. -/
theorem C167_exactly_partial (bs : List Binding) : C167_full bs ↔ ∀ b ∈ bs, ∃ n, b = .common n := by
  constructor
  · intro hf b hb
    cases b with
    | common n => exact ⟨n, rfl⟩
    | spectral m =>
      obtain ⟨i, hi⟩ := List.mem_iff_getElem?.1 hb
      have h1 := hf [] i _ hi 1 1 1
      rw [C167_violated bs [] i m hi] at h1
      cases h1
  · intro hc h i b hi width height channels
    obtain ⟨n, rfl⟩ := hc b (List.mem_of_getElem? hi)
    exact C167_partial bs h i n hi width height channels

theorem C167_violated_full (full : Text) : ¬ C167_full (classes full) := by
  intro h
  obtain ⟨n, hn⟩ := (C167_exactly_partial _).1 h (.spectral (full ++ ".rgb".toList)) (by simp [classes])
  cases hn

/-- Pictures of depths and of renders. -/
example (full : Text) : repr (process (classes full) [.alloc "Image_x".toList]) 0 640 480 1 = some "Image_f32(640x480, channels=1)".toList := by
  rw [C167_partial (classes full) _ 0 "Image_f32".toList rfl]
  decide

example (full : Text) : repr (process (classes full) []) 7 640 480 3 = none := C167_violated _ _ 7 _ rfl 640 480 3

end Huira.PyBind.ImageRepr
