import Verif.Model.Mapping

/-!
# Coordinate systems for bounding boxes

Models export/CoordSys.h in exact arithmetic. A division by zero or a conversion outside of `int` is `none`.
-/

namespace F3D
namespace CoordSys

open Cont (Box3q)

/-- `coordinateSystem(e1, e2, e3, origin)`, export/CoordSys.h:127-148. -/
def ofBasis (e1 e2 e3 origin : V3q) : M44 :=
  ⟨⟨e1.x, e1.y, e1.z, 0⟩, ⟨e2.x, e2.y, e2.z, 0⟩, ⟨e3.x, e3.y, e3.z, 0⟩, ⟨origin.x, origin.y, origin.z, 1⟩⟩

/-- `coordinateSystem(wsBounds)`, export/CoordSys.h:189-199. -/
def ofBox (b : Box3q) : M44 :=
  ofBasis ⟨b.max.x - b.min.x, 0, 0⟩ ⟨0, b.max.y - b.min.y, 0⟩ ⟨0, 0, b.max.z - b.min.z⟩ b.min

/-- One component of `voxelMin`, export/CoordSys.h:158-159. -/
def snapMin (a s : Rat) : Rat := (a / s).floor * s

/-- One component of `voxelMax`, export/CoordSys.h:160-161. -/
def snapMax (a s : Rat) : Rat := (a / s).ceil * s

/-- One component of `V3i(floor(v / wsVoxelSize) + V3f(0.5))`, export/CoordSys.h:164-165: converting to `int`
truncates towards zero. -/
def extent (v s : Rat) : Option Int := Cont.toInt (Cont.trunc (((v / s).floor : Int) + 1 / 2 : Rat))

/-- `coordinateSystem(wsBounds, wsVoxelSize, extents)`, export/CoordSys.h:152-171: the matrix and the extents. -/
def fit (b : Box3q) (s : V3q) : Option (M44 × Box3i) :=
  if s.x = 0 ∨ s.y = 0 ∨ s.z = 0 then none else do
    let voxelMin : V3q := ⟨snapMin b.min.x s.x, snapMin b.min.y s.y, snapMin b.min.z s.z⟩
    let voxelMax : V3q := ⟨snapMax b.max.x s.x, snapMax b.max.y s.y, snapMax b.max.z s.z⟩
    let ax ← extent voxelMin.x s.x
    let ay ← extent voxelMin.y s.y
    let az ← extent voxelMin.z s.z
    let bx ← extent voxelMax.x s.x
    let by' ← extent voxelMax.y s.y
    let bz ← extent voxelMax.z s.z
    some (ofBox ⟨voxelMin, voxelMax⟩, ⟨⟨ax, ay, az⟩, ⟨bx, by', bz⟩⟩)

end CoordSys
end F3D
