/-!
# Frame buffer (model)

Models `include/huira/render/frame_buffer.hpp` 14-143. Pixel contents are lists over an arbitrary type per image
(one type for all images: a simplification, the code never mixes them); writing through the reference returned by
an accessor is the operation `poke`, which keeps the image's dimensions.
-/
namespace Huira.FrameBuffer

/-- Public channels (frame_buffer.hpp 25-85). -/
inductive Channel where
  | depth | albedo | geometryIds | cameraNormals | worldNormals
  | receivedDirect | receivedIndirect | receivedPower | sensorResponse
deriving DecidableEq

/-- Private images (frame_buffer.hpp 113-122). -/
inductive Store where
  | depth | albedo | geometryIds | cameraNormals | worldNormals | receivedPower | sensorResponse
deriving DecidableEq

/-- The image returned by each accessor / tested by each `has_*`. -/
def Channel.store : Channel → Store
  | .depth => .depth
  | .albedo => .albedo
  | .geometryIds => .geometryIds
  | .cameraNormals => .cameraNormals
  | .worldNormals => .worldNormals
  | .receivedDirect => .receivedPower     -- 53-58
  | .receivedIndirect => .receivedPower   -- 60-65
  | .receivedPower => .receivedPower      -- 67-72
  | .sensorResponse => .sensorResponse    -- 74-80

/-- The images an `enable_*` call acts on, in order. -/
def Channel.touches : Channel → List Store
  | .sensorResponse => [.receivedPower, .sensorResponse]  -- 76-77
  | c => [c.store]

structure Img (P : Type) where
  width : Nat
  height : Nat
  data : List P

structure Buffer (P : Type) where
  width : Nat
  height : Nat
  img : Store → Img P

variable {P : Type}

/-- `Image<T>(0, 0)` / the default-constructed members. -/
def Img.empty : Img P := ⟨0, 0, []⟩

/-- The private constructor (frame_buffer.hpp 110). -/
def mk (w h : Nat) : Buffer P := ⟨w, h, fun _ => Img.empty⟩

def setImg (b : Buffer P) (s : Store) (i : Img P) : Buffer P :=
  { b with img := fun t => if t = s then i else b.img t }

/-- `enable_` (frame_buffer.hpp 131-141); `dflt s` is the fill value of image `s`. -/
def enable1 (dflt : Store → P) (b : Buffer P) (on : Bool) (s : Store) : Buffer P :=
  if on = false then setImg b s Img.empty
  else if (b.img s).width ≠ b.width ∨ (b.img s).height ≠ b.height then
    setImg b s ⟨b.width, b.height, List.replicate (b.width * b.height) (dflt s)⟩
  else b

/-- `enable_X(on)`. -/
def enable (dflt : Store → P) (b : Buffer P) (c : Channel) (on : Bool) : Buffer P :=
  c.touches.foldl (fun b s => enable1 dflt b on s) b

/-- `has_` (frame_buffer.hpp 124-129). -/
def hasStore (b : Buffer P) (s : Store) : Bool :=
  decide ((b.img s).width = b.width) && decide ((b.img s).height = b.height)

def has (b : Buffer P) (c : Channel) : Bool := hasStore b c.store

/-- `clear()` (frame_buffer.hpp 82-105). -/
def clear (dflt : Store → P) (b : Buffer P) : Buffer P :=
  { b with img := fun s => if hasStore b s then
      { b.img s with data := List.replicate (b.img s).data.length (dflt s) } else b.img s }

inductive Op (P : Type) where
  | enable (c : Channel) (on : Bool)
  | clear
  /-- write pixel `i` through the reference returned by the accessor of `c` -/
  | poke (c : Channel) (i : Nat) (v : P)

def step (dflt : Store → P) (b : Buffer P) : Op P → Buffer P
  | .enable c on => enable dflt b c on
  | .clear => clear dflt b
  | .poke c i v => setImg b c.store { b.img c.store with data := (b.img c.store).data.set i v }

def run (dflt : Store → P) (b : Buffer P) (ops : List (Op P)) : Buffer P := ops.foldl (step dflt) b

end Huira.FrameBuffer
