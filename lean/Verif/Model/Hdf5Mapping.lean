import Verif.Model.Hdf5Files
import Verif.Model.MappingIO

/-!
# Mappings in HDF5 files

Models `writeFieldMapping` and `readFieldMapping` of src/Field3DFileHDF5.cpp with the `hid_t` functions of
src/FieldMappingIO.cpp, on the groups of `Verif.Model.Hdf5`.
-/

namespace F3D
namespace Hdf5
open Ogawa Og FieldIO
open MappingIO (HVal HGroup BSample Loaded encMat decMat kNullData nullText nullClass matrixClass frustumClass kMappingType
  hWriteMatrix hReadMatrix hWriteFrustum hReadFrustum)

/-- What the IO classes look at in a mapping: the class and the samples. `unknown`: a class without IO class. -/
inductive MapBits where
  | null
  | matrix (samples : List BSample)
  | frustum (screen camera : List BSample) (dist : Mapping.ZDist)
  | unknown (cls : Name)

/-- `className`, src/FieldMapping.cpp. -/
def MapBits.cls : MapBits → Name
  | .null => nullClass
  | .matrix _ => matrixClass
  | .frustum _ _ _ => frustumClass
  | .unknown c => c

/-- The attribute that `writeAttribute` makes, src/Hdf5Util.cpp:383-520: one number has the dimension 1; matrices have
the dimension 16 in the old format and 4 × 4 else. -/
def attrOfVal : HVal → Attr
  | .int v => .ints [v]
  | .float v => .floats [v]
  | .array16 m => .array16 (encMat m)
  | .array4x4 m => .array4x4 (encMat m)

/-- What `readAttribute` for one number or for a matrix accepts, src/Hdf5Util.cpp:117-380. -/
def valOfAttr : Attr → Option HVal
  | .ints [v] => some (.int v)
  | .floats [v] => some (.float v)
  | .array16 b => some (.array16 (decMat b))
  | .array4x4 b => some (.array4x4 (decMat b))
  | _ => none

/-- The attributes of a group that are numbers or matrices. The names of attributes are distinct. -/
def mappingAttrs (g : Obj) : HGroup := g.attrs.filterMap fun p => (valOfAttr p.2).map fun v => (p.1, v)

/-- One `writeAttribute` after the other until one fails. -/
def putVals (l : HGroup) : W := W.all (l.map fun p => putAttr p.1 (attrOfVal p.2))

/-- `write(hid_t)` of the IO classes, src/FieldMappingIO.cpp:115-124, 249-292 and 490-552. Reading beyond the samples of
the camera is undefined. -/
def MapBits.body : MapBits → W
  | .null => putAttr kNullData (.str nullText)
  | .matrix l => putVals (hWriteMatrix l)
  | .frustum ss cs d => match hWriteFrustum ss cs d with
    | some l => putVals l
    | none => fun g => (.crash, g)
  | .unknown _ => fun g => (.failed, g)

/-- `writeFieldMapping`, src/Field3DFileHDF5.cpp:1645-1665, in a build without assertions. -/
def writeMapBits (m : MapBits) : W := putAttr kMappingType (.str m.cls) ⨾ m.body

/-- `readFieldMapping`, src/Field3DFileHDF5.cpp:1612-1641, with `read(hid_t)` of the IO classes,
src/FieldMappingIO.cpp:86-96, 147-199 and 343-409; in a build without assertions. -/
def readMapping (invTan : Rat) (g : Obj) : Res (Option Loaded) :=
  (getStr kMappingType g).bind fun cls =>
  if cls = nullClass then (getStr kNullData g).bind fun _ => .ok (some .null)
  else if cls = matrixClass then (hReadMatrix (mappingAttrs g)).bind fun m => .ok (m.map .matrix)
  else if cls = frustumClass then (hReadFrustum invTan (mappingAttrs g)).bind fun m => .ok (m.map .frustum)
  else .null

/-- The mapping; what numbers that are not finite do is left open (undefined), as in `Verif.Model.LayerIO`. -/
def readMap (invTan : Rat) (g : Obj) : Res Loaded :=
  (readMapping invTan g).bind fun m =>
  match m with
  | some m => .ok m
  | none => .crash

end Hdf5
end F3D
