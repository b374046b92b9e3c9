import Mathlib.Data.List.Basic
import Mathlib.Tactic.SplitIfs
/-!
# Python bindings: numpy views of images (model)

Models the lifetimes behind `np.asarray(image)`: `bindings/python/include/huira/images/image_py.ipp` 106-135 (buffer
protocol), 192-193 (`fill`, `clear`), 438-455 (bundles), `bindings/python/include/huira/render/frame_buffer_py.ipp` 21-104,
`bindings/python/include/huira/render/renderer_py.ipp`, `include/huira/render/frame_buffer.hpp` 20-137 and
`include/huira_impl/render/renderer.ipp` 22-64.

A Python script holds objects: owners (an `Image`, an `ImageBundle` with image and alpha, a `FrameBuffer` with seven
images), properties that refer to a member image of an owner, and numpy views of an image.

Environment (pybind11, numpy, CPython and `std::vector`, contracts)
* a property with `reference_internal` keeps its owner alive, a view keeps the image object it was taken from alive; an
  object without references is destroyed at once (reference counting). So an owner lives as long as the script holds it, or
  a property of it, or a view of one of its images: every object is stored here with the owner it keeps alive.
* a view captures address and shape of the storage when it is made.
* move-assignment of a vector gives up the old storage; copy-assignment either reuses the storage (when its capacity
  suffices) or replaces it; `clear` keeps the storage.
* a block of storage is a number; a fresh number is a block not handed out before. (An allocator may reuse the address of a
  block given back; a view of a block given back is dangling all the same.)
-/
namespace Huira.PyViews

/-- A member image: `Image::data_` (its block of storage) and the resolution. `include/huira/images/image.hpp` 136-140. -/
structure Slot where
  buf : ℕ
  size : ℕ × ℕ
deriving DecidableEq, Repr

/-- What a Python object is: an owner, a property that refers to member `k`, or a view of member `k` with the storage and
the shape captured when the view was made. -/
inductive What
  | whole
  | member (k : ℕ)
  | view (k : ℕ) (buf : ℕ) (size : ℕ × ℕ)
deriving DecidableEq, Repr

/-- A Python object: the owner it keeps alive, what it is, and whether the script still holds it. -/
structure PyObj where
  owner : ℕ
  what : What
  held : Bool
deriving DecidableEq, Repr

/-- The state of the process. Owners are numbered `0 .. owners - 1`; owner `o` has the member images `0 .. arity o - 1`;
`res o` is the resolution of a frame buffer; `cap b` is the capacity of block `b` in pixels; `live b`: not given back. -/
structure Heap where
  owners : ℕ
  arity : ℕ → ℕ
  res : ℕ → ℕ × ℕ
  slots : ℕ → ℕ → Slot
  objs : List PyObj
  next : ℕ
  cap : ℕ → ℕ
  live : ℕ → Bool

/-- Interpreter at start. -/
def Heap.init : Heap := ⟨0, fun _ => 0, fun _ => (0, 0), fun _ _ => ⟨0, (0, 0)⟩, [], 0, fun _ => 0, fun _ => false⟩

/-- Is owner `o` kept alive by an object the script holds? -/
def Heap.reach (h : Heap) (o : ℕ) : Bool := h.objs.any fun x => x.held && x.owner == o

/-- What a script can do to images, bundles, frame buffers and views. -/
inductive Op
  /-- a new `Image` (one size), bundle (two) or frame buffer (seven times `(0, 0)`), its resolution -/
  | create (sizes : List (ℕ × ℕ)) (res : ℕ × ℕ)
  /-- read a property of object `i`: `bundle.image`, `fb.depth`, … -/
  | property (i k : ℕ)
  /-- `np.asarray(object i)` -/
  | asarray (i : ℕ)
  /-- `del object i` -/
  | drop (i : ℕ)
  /-- `bundle.image = …`: copy of an image of the given size; does the vector take new storage although it need not? -/
  | assign (i k : ℕ) (size : ℕ × ℕ) (fresh : Bool)
  /-- `fb.enable_…(on)` for channel `k` -/
  | enable (i k : ℕ) (on : Bool)
  /-- `image.clear()` -/
  | clear (i : ℕ)
  /-- `image.fill(…)`, or a render that writes into channel `k` in place: nothing moves -/
  | write (i : ℕ)
  /-- `renderer.render(view, fb)` -/
  | render (i : ℕ)
deriving Repr

/-- Member image `k` of owner `o` becomes `s`. -/
def Heap.setSlot (h : Heap) (o k : ℕ) (s : Slot) : Heap :=
  { h with slots := fun o' k' => if o' = o ∧ k' = k then s else h.slots o' k' }

/-- Move-assignment of a new image to member `k` of owner `o`: new storage, the old one is given back. -/
def Heap.replace (h : Heap) (o k : ℕ) (size : ℕ × ℕ) : Heap :=
  { h.setSlot o k ⟨h.next, size⟩ with
    next := h.next + 1
    cap := fun b => if b = h.next then size.1 * size.2 else h.cap b
    live := fun b => if b = (h.slots o k).buf then false else if b = h.next then true else h.live b }

/-- Copy-assignment (`ImageBundle::image` through `def_readwrite`, image_py.ipp 449). -/
def Heap.assign (h : Heap) (o k : ℕ) (size : ℕ × ℕ) (fresh : Bool) : Heap :=
  if fresh || decide (h.cap (h.slots o k).buf < size.1 * size.2) then h.replace o k size
  else h.setSlot o k ⟨(h.slots o k).buf, size⟩

/-- `FrameBuffer::enable_` (frame_buffer.hpp 124-134). -/
def Heap.enable (h : Heap) (o k : ℕ) (on : Bool) : Heap :=
  if on then (if (h.slots o k).size = h.res o then h else h.replace o k (h.res o))
  else h.replace o k (0, 0)

/-- Destruction of the owners nothing holds any more: their storage is given back. -/
def Heap.collect (h : Heap) : Heap :=
  { h with live := fun b => h.live b && (List.range h.owners).any fun o =>
      h.reach o && (List.range (h.arity o)).any fun k => (h.slots o k).buf == b }

/-- `fb.received_power` is member 5, `fb.sensor_response` member 6 (frame_buffer.hpp 112-119; the direct and the indirect
power are member 5 as well, 49-63). -/
def received : ℕ := 5
@[inherit_doc received] def sensor : ℕ := 6

/-- The image an object stands for (an `Image`, or a property): owner and member. -/
def Heap.image (h : Heap) (i : ℕ) : Option (ℕ × ℕ) :=
  match h.objs[i]? with
  | some ⟨o, .whole, true⟩ => if h.arity o = 1 then some (o, 0) else none
  | some ⟨o, .member k, true⟩ => some (o, k)
  | _ => none

/-- The owner an object is, if it has a member `k` and is of the right type: a bundle has two member images, a frame buffer
seven. -/
def Heap.parent (h : Heap) (i k : ℕ) (types : List ℕ) : Option ℕ :=
  match h.objs[i]? with
  | some ⟨o, .whole, true⟩ => if k < h.arity o ∧ h.arity o ∈ types then some o else none
  | _ => none

/-- The storage of a new owner: blocks `next, next + 1, …`. -/
def Heap.create (h : Heap) (sizes : List (ℕ × ℕ)) (res : ℕ × ℕ) : Heap where
  owners := h.owners + 1
  arity := fun o => if o = h.owners then sizes.length else h.arity o
  res := fun o => if o = h.owners then res else h.res o
  slots := fun o k => if o = h.owners then ⟨h.next + k, sizes.getD k (0, 0)⟩ else h.slots o k
  objs := h.objs ++ [⟨h.owners, .whole, true⟩]
  next := h.next + sizes.length
  cap := fun b => if h.next ≤ b then (sizes.getD (b - h.next) (0, 0)).1 * (sizes.getD (b - h.next) (0, 0)).2 else h.cap b
  live := fun b => if h.next ≤ b ∧ b < h.next + sizes.length then true else h.live b

/-- A further object. -/
def Heap.push (h : Heap) (x : PyObj) : Heap := { h with objs := h.objs ++ [x] }

/-- One statement of the script. A statement on an object the script does not hold, or of another type, raises a Python
exception and changes nothing. -/
def Heap.step (h : Heap) : Op → Heap
  | .create sizes res => h.create sizes res
  | .property i k =>
    match h.parent i k [2, 7] with
    | some o => h.push ⟨o, .member k, true⟩
    | none => h
  | .asarray i =>
    match h.image i with
    | some (o, k) => h.push ⟨o, .view k (h.slots o k).buf (h.slots o k).size, true⟩
    | none => h
  | .drop i =>
    Heap.collect { h with objs := h.objs.modify i fun x => { x with held := false } }
  | .assign i k size fresh =>
    match h.parent i k [2] with
    | some o => h.assign o k size fresh
    | none => h
  | .enable i k on =>
    match h.parent i k [7] with
    | some o => if k = sensor then (h.enable o received on).enable o sensor on else h.enable o k on
    | none => h
  | .clear i =>
    match h.image i with
    | some (o, k) => h.setSlot o k ⟨(h.slots o k).buf, (0, 0)⟩
    | none => h
  | .write _ => h
  | .render i =>
    match h.parent i received [7] with
    | some o => if (h.slots o received).size = h.res o then h.replace o received (h.res o) else h
    | none => h

/-- A script. -/
def Heap.run (h : Heap) : List Op → Heap
  | [] => h
  | op :: ops => (h.step op).run ops

/-! ## Specification -/

/-- `i` is a view the script holds: of member `k` of owner `o`, with storage `b` and shape `size`. -/
def Heap.HoldsView (h : Heap) (i o k b : ℕ) (size : ℕ × ℕ) : Prop := h.objs[i]? = some ⟨o, .view k b size, true⟩

/-- Every element of the view can be accessed: it has none, or its storage has not been given back and is large enough. -/
def Heap.Accessible (h : Heap) (b : ℕ) (size : ℕ × ℕ) : Prop :=
  size.1 * size.2 = 0 ∨ (h.live b = true ∧ size.1 * size.2 ≤ h.cap b)

/-- Reading the image shows what is written through the view. -/
def Heap.Shared (h : Heap) (o k b : ℕ) : Prop := (h.slots o k).buf = b

/-- A statement that may give member `k` of the owner held by object `i` new storage: an assignment to the bundle's image, a
change of the channel (the response goes with the received power), a render for the received power. -/
def Op.Touches : Op → ℕ → ℕ → Prop
  | .assign i k .., i', k' => i' = i ∧ k' = k
  | .enable i k _, i', k' => i' = i ∧ (k' = k ∨ (k = sensor ∧ k' = received))
  | .render i, i', k' => i' = i ∧ k' = received
  | _, _, _ => False

end Huira.PyViews
