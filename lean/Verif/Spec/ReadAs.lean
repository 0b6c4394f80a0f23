import Verif.Model.ReadAs

/-!
# What conversion of a layer keeps
-/

namespace F3D
namespace ReadAs
open Identical (Map)
open Copy

variable {α : Type}

/-- Where the mapping puts a point of voxel space at a time; `none` for the null mapping. -/
def toWorld : Map → Option (V3q → Rat → Option V3q)
  | .null => none
  | .matrix m => some m.voxelToWorldAt
  | .frustum m => some m.voxelToWorldAt

/-- `r` is the field `f`, in class `c`. -/
structure SameAs (c : Cls) (f r : Item α) : Prop where
  name : r.name = f.name
  attr : r.attr = f.attr
  info : r.info = f.info
  extents : r.data.extents = f.data.extents
  window : r.data.dw = f.data.dw
  place : toWorld r.map = toWorld f.map
  cls : c.casts r.data = true
  voxels : ∀ p, f.data.dw.contains p = true → r.data.value p = f.data.value p

/-- The voxels of the field can be read, and its mapping is the one that `setMapping` and `setSize` of a field make of some
mapping. -/
structure Whole (f : Item α) : Prop where
  voxels : ∀ p, f.data.dw.contains p = true → ∃ v, f.data.value p = some v
  mapping : ∃ m, setExtents m f.data.extents = some f.map

end ReadAs
end F3D
