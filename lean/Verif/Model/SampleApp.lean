import Verif.Model.Merge

/-!
# The program that makes sample files

Models `f3dsample`, apps/f3dsample/main.cpp, with an Ogawa output file: which field it makes and which calls it makes on the
file. Files are those of `Verif.Model.Files`. The parsing of the command line is left out, and so is what the field holds: the
entries made for a field of a class, type and resolution are given.
-/

namespace F3D
namespace SampleApp
open Ogawa Og FieldIO Files
open Merge (Voxel)
open Metadata (Meta Obj entries)

/-- `Options`, apps/f3dsample/main.cpp:61-75, without the name of the file. Nothing reads `fill`. -/
structure Options where
  name : Name
  attr : Name
  resolution : V3i
  fieldType : Name
  fill : Name
  bits : Int
  isVectorField : Bool

/-- The classes of fields that are made. -/
inductive Cls
  | dense
  | sparse
  | mac
deriving DecidableEq

/-- "SparseField" -/
def kSparse : Name := [83, 112, 97, 114, 115, 101, 70, 105, 101, 108, 100]
/-- "MACField" -/
def kMac : Name := [77, 65, 67, 70, 105, 101, 108, 100]

/-- "float_global_metadata" -/
def kFloatGlobal : Name :=
  [102, 108, 111, 97, 116, 95, 103, 108, 111, 98, 97, 108, 95, 109, 101, 116, 97, 100, 97, 116, 97]
/-- "vec_float_global_metadata" -/
def kVecFloatGlobal : Name :=
  [118, 101, 99, 95, 102, 108, 111, 97, 116, 95, 103, 108, 111, 98, 97, 108, 95, 109, 101, 116, 97, 100, 97, 116, 97]
/-- "int_global_metadata" -/
def kIntGlobal : Name :=
  [105, 110, 116, 95, 103, 108, 111, 98, 97, 108, 95, 109, 101, 116, 97, 100, 97, 116, 97]
/-- "vec_int_global_metadata" -/
def kVecIntGlobal : Name :=
  [118, 101, 99, 95, 105, 110, 116, 95, 103, 108, 111, 98, 97, 108, 95, 109, 101, 116, 97, 100, 97, 116, 97]
/-- "str_global_metadata" -/
def kStrGlobal : Name :=
  [115, 116, 114, 95, 103, 108, 111, 98, 97, 108, 95, 109, 101, 116, 97, 100, 97, 116, 97]

/-- The template argument of `createConcreteVectorField` or `createConcreteScalarField`: the switch statements of `createField`,
apps/f3dsample/main.cpp:198-227. -/
def voxelOf (opt : Options) : Voxel :=
  if opt.isVectorField then
    if opt.bits = 64 then .v3d else if opt.bits = 32 then .v3f else .v3h
  else
    if opt.bits = 64 then .double else if opt.bits = 32 then .float else .half

/-- The class of the field, apps/f3dsample/main.cpp:249-253 for scalars, 272-278 for vectors. -/
def classOf (opt : Options) : Cls :=
  if opt.isVectorField then
    if opt.fieldType = kSparse then .sparse else if opt.fieldType = kMac then .mac else .dense
  else
    if opt.fieldType = kSparse then .sparse else .dense

/-- What is stored for a field: its mapping (`setCommon`, apps/f3dsample/main.cpp:291-308), and the entries for its metadata and
contents. -/
structure Content (M : Type) where
  mapping : V3i → M
  mdata : Voxel → Cls → V3i → List Entry
  body : Voxel → Cls → V3i → List Entry

/-- The metadata of the file: the calls of `writeGlobalMetadata`, apps/f3dsample/main.cpp:231-239. `0x3f800000` is `1.0f`. -/
def globalInfo : Meta :=
  ((Obj.new false).run [.float kFloatGlobal 0x3f800000, .vecFloat kVecFloatGlobal ⟨0x3f800000, 0x3f800000, 0x3f800000⟩,
    .int kIntGlobal 1, .vecInt kVecIntGlobal ⟨1, 1, 1⟩, .str kStrGlobal [115, 116, 114, 105, 110, 103]]).data

/-- The layer that is written: `writeLayer` with the name and the attribute of the field. -/
def layer {M : Type} (K : Content M) (opt : Options) : Write M :=
  ⟨opt.name, opt.attr, K.mapping opt.resolution, K.mdata (voxelOf opt) (classOf opt) opt.resolution,
    K.body (voxelOf opt) (classOf opt) opt.resolution⟩

/-- `main`, apps/f3dsample/main.cpp:99-106, with the ends of the functions that make fields, 258-261 and 283-286; `created` is
what `create` returns, which nothing looks at. The answers of the calls and the file; `none` is undefined behaviour. Simplified: an
exception, which ends the program, is an answer like the others here. -/
def main {M : Type} (C : MapIO M) (K : Content M) (opt : Options) (created : Bool) : Option (List Ret × Out M) :=
  Out.run C (Out.new.create created) [.write (layer K opt), .global (entries globalInfo)]

end SampleApp
end F3D
