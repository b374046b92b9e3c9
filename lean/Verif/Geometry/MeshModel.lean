import Verif.Num.Vec3
import Mathlib.Analysis.SpecialFunctions.Sqrt

/-!
# Model of the triangle mesh

Models `include/huira_impl/geometry/mesh.ipp`.  `float` is the reals; reading outside a buffer is `none`; `prim_id * 3` is
computed in 32 bits.
-/

namespace Huira.Mesh

noncomputable section

/-- `struct Vertex` (`vertex.hpp` 11-22). -/
structure Vtx (n : ℕ) where
  position : V3
  albedo : Fin n → ℝ
  normal : V3
  uv : ℝ × ℝ

/-- `struct Tangent` (`vertex.hpp` 30-33). -/
structure Tan where
  tangent : V3
  bitangent : V3

/-- `class Mesh` (`mesh.hpp` 75-77). -/
structure Mesh (n : ℕ) where
  idx : List ℕ
  vtx : List (Vtx n)
  tan : List Tan

variable {n : ℕ}

/-- The constructor from indices and vertices (`mesh.ipp` 20-30); `none` when it throws. -/
def make (idx : List ℕ) (vtx : List (Vtx n)) : Option (Mesh n) :=
  if idx.any (fun i => i ≥ vtx.length) then none else some ⟨idx, vtx, []⟩

/-- The constructor with tangents (`mesh.ipp` 32-49). -/
def makeTan (idx : List ℕ) (vtx : List (Vtx n)) (tan : List Tan) : Option (Mesh n) :=
  if idx.any (fun i => i ≥ vtx.length) then none
  else if tan.length ≠ 0 ∧ tan.length ≠ vtx.length then none
  else some ⟨idx, vtx, tan⟩

/-- `has_tangents` (`mesh.hpp` 61). -/
def Mesh.hasTangents (m : Mesh n) : Bool := !m.tan.isEmpty

/-- `triangle_count` (`mesh.ipp` 177-181), also the number of primitives handed to Embree (`mesh.ipp` 127-134). -/
def Mesh.triangleCount (m : Mesh n) : ℕ := m.idx.length / 3

/-- `index_buffer_[hit.prim_id * 3 + k]` (`mesh.ipp` 55-57): unsigned 32-bit arithmetic. -/
def Mesh.index (m : Mesh n) (prim k : ℕ) : Option ℕ := m.idx[(prim * 3 + k) % 2 ^ 32]?

/-- `w * a + u * b + v * c`. -/
def mix3 (w u v : ℝ) (a b c : V3) : V3 := (w * a + u * b) + v * c
/-- The same for texture coordinates. -/
def mix2 (w u v : ℝ) (a b c : ℝ × ℝ) : ℝ × ℝ := (w * a.1 + u * b.1 + v * c.1, w * a.2 + u * b.2 + v * c.2)

/-- What `compute_surface_interaction` sets. -/
structure Surf (n : ℕ) where
  position : V3
  normal : V3
  uv : ℝ × ℝ
  albedo : Fin n → ℝ
  tangent : V3
  bitangent : V3

/-- `compute_surface_interaction` (`mesh.ipp` 51-84). -/
def Mesh.surface (m : Mesh n) (prim : ℕ) (u v : ℝ) : Option (Surf n) := do
  let i0 ← m.index prim 0
  let i1 ← m.index prim 1
  let i2 ← m.index prim 2
  let w := 1 - u - v
  let a ← m.vtx[i0]?
  let b ← m.vtx[i1]?
  let c ← m.vtx[i2]?
  let tb ← if m.hasTangents then do
      let ta ← m.tan[i0]?
      let tb ← m.tan[i1]?
      let tc ← m.tan[i2]?
      pure (mix3 w u v ta.tangent tb.tangent tc.tangent, mix3 w u v ta.bitangent tb.bitangent tc.bitangent)
    else pure (V3.zero, V3.zero)
  pure ⟨mix3 w u v a.position b.position c.position, mix3 w u v a.normal b.normal c.normal, mix2 w u v a.uv b.uv c.uv,
    fun i => w * a.albedo i + u * b.albedo i + v * c.albedo i, tb.1, tb.2⟩

/-- `compute_uv` (`mesh.ipp` 86-97). -/
def Mesh.computeUv (m : Mesh n) (prim : ℕ) (u v : ℝ) : Option (ℝ × ℝ) := do
  let i0 ← m.index prim 0
  let i1 ← m.index prim 1
  let i2 ← m.index prim 2
  let w := 1 - u - v
  let a ← m.vtx[i0]?
  let b ← m.vtx[i1]?
  let c ← m.vtx[i2]?
  pure (mix2 w u v a.uv b.uv c.uv)

end
end Huira.Mesh
