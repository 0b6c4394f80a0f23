import Verif.Model.Metadata

/-!
# The offset of MIP fields

Models the offset of MIP fields, export/MIPBase.h, which is kept in a member and in the metadata.
-/

namespace F3D
namespace MipField
open Metadata

/-- `k_mipOffsetStr`, src/MIPUtil.cpp:66: `mipoffset`. -/
def kMipOffset : Og.Name := [109, 105, 112, 111, 102, 102, 115, 101, 116]

/-- `m_mipOffset`, export/MIPBase.h:203, and the metadata of the field. -/
structure Off where
  offset : V3i
  info : Meta
deriving DecidableEq, Repr

/-- `MIPBase()`, export/MIPBase.h:213-217. -/
def Off.new : Off := ⟨⟨0, 0, 0⟩, Meta.empty⟩

/-- The offset in the metadata, as read by `mappingChanged`, export/MIPField.h:551-552, and by
`adjustedMIPFieldMapping`, src/MIPUtil.cpp:91-92. -/
def Off.stored (o : Off) : V3i := o.info.getVecInt kMipOffset ⟨0, 0, 0⟩

/-- `setMIPOffset`, export/MIPBase.h:229-234. -/
def Off.setMIPOffset (o : Off) (v : V3i) : Off := ⟨v, o.info.setVecInt kMipOffset v⟩

/-- The beginning of `mappingChanged`, export/MIPField.h:550-553. -/
def Off.mappingChanged (o : Off) : Off := o.setMIPOffset o.stored

end MipField
end F3D
