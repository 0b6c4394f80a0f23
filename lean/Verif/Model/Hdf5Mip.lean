import Verif.Model.Hdf5Files
import Verif.Model.LayerIO

/-!
# MIP fields in HDF5 layers

Models the HDF5 parts of src/MIPFieldIO.cpp and include/MIPFieldIO.h, on the groups of `Verif.Model.Hdf5`, and the IO classes of
dense, sparse and MIP fields by name. As for Ogawa (`Verif.Model.MipIO`), the levels of a field that is read are loaded later,
by load actions that open the file again. Left out: the file handle that stays open if loading a level throws, and the same
as for Ogawa.
-/

namespace F3D
namespace Hdf5
open Ogawa Og FieldIO
open MipIO (denseClass sparseClass mipClass kMipGroup kLevels kBaseType levelName levelPath setupLazyLoad Lazy)

variable {α : Type}

/-! ## Dense and sparse fields -/

/-- Fields of one voxel type. -/
inductive AnyField (α : Type) where
  | dense (f : Dense α)
  | sparse (f : Sparse α)

/-- `className`, export/DenseField.h:135-138 and export/SparseField.h:368-371. -/
def AnyField.cls : AnyField α → Name
  | .dense _ => denseClass
  | .sparse _ => sparseClass

def AnyField.extents : AnyField α → Box3i
  | .dense f => f.extents
  | .sparse f => f.extents
def AnyField.dw : AnyField α → Box3i
  | .dense f => f.dw
  | .sparse f => f.dw

/-- `write` of the IO class. -/
def AnyField.write (gzip : Bool) (e : Elem α) : AnyField α → W
  | .dense f => writeDense gzip e f
  | .sparse f => writeSparse gzip e f

/-- `read` of the IO class of the name, src/ClassFactory.cpp:165-173. -/
def readAny (conv : HType → HType → List UInt8 → List UInt8) (maxMem : Nat) (e : Elem α) (zero dflt : α) (_ cls : Name)
    (g : Obj) : Res (AnyField α) :=
  if cls = denseClass then (readDense conv e dflt g).bind fun f => .ok (.dense f)
  else if cls = sparseClass then (readSparse conv maxMem e zero dflt g).bind fun f => .ok (.sparse f)
  else .null

/-! ## Writing MIP fields -/

/-- What `a` returns is not looked at. -/
def ignoring (a : W) : W := fun g =>
  match a g with
  | (.failed, g) => (.ok, g)
  | r => r

/-- The loop over the levels from number `i` on, include/MIPFieldIO.h:451-463. (The group of levels is new, so that the group of
a level can be made; else it would depend on the class what happens.) -/
def writeLevels (gzip : Bool) (e : Elem α) : Nat → List (AnyField α) → W
  | _, [] => done
  | i, f :: fs => putGroup (levelName i) ⨾ ignoring (inside [levelName i] (f.write gzip e)) ⨾ writeLevels gzip e (i + 1) fs

/-- `MIPFieldIO::write(hid_t)`, src/MIPFieldIO.cpp:303-386, and `writeInternal`, include/MIPFieldIO.h:389-466, for a MIP field
with these windows whose levels are of class `cls`. A group of levels that cannot be made is noticed when the number of levels
is written to it. -/
def writeMipAs (gzip : Bool) (e : Elem α) (cls : Name) (extents dw : Box3i) (levels : List (AnyField α)) : W :=
  must (putAttr kVersion (.ints [1])) ⨾
  must (putAttr kExtents (.ints (boxInts extents))) ⨾
  must (putAttr kDataWindow (.ints (boxInts dw))) ⨾
  must (putAttr kComponents (.ints [(dims e.type : Int)])) ⨾
  putAttr kBits (.ints [(bits e.type : Int)]) ⨾
  must (putAttr kBaseType (.str cls)) ⨾
  must (putGroup kMipGroup) ⨾
  inside [kMipGroup] (must (putAttr kLevels (.ints [asInt levels.length])) ⨾ writeLevels gzip e 0 levels)

/-- The same for a MIP field that was set up with these levels: its windows are those of level 0, export/MIPField.h:407 and
676-682. -/
def writeMip (gzip : Bool) (e : Elem α) (cls : Name) : List (AnyField α) → W
  | [] => fun g => (.crash, g)
  | f :: fs => writeMipAs gzip e cls f.extents f.dw (f :: fs)

/-! ## Reading MIP fields -/

/-- The windows of a level, include/MIPFieldIO.h:577-592. A group that is not there has no attributes. -/
def readProxy (mip : Obj) (i : Nat) : Res (Box3i × Box3i) :=
  match named (levelName i) mip.links with
  | some (.group as ls) =>
    (getInts 6 kExtents (.group as ls)).bind fun a =>
    (getInts 6 kDataWindow (.group as ls)).bind fun b =>
    .ok (boxOf a, boxOf b)
  | _ => .exception

/-- The loop over `n` levels from number `i` on, include/MIPFieldIO.h:576-599. -/
def readProxies (mip : Obj) : Nat → Nat → Res (List (Box3i × Box3i))
  | 0, _ => .ok []
  | n + 1, i => (readProxy mip i).bind fun p => (readProxies mip n (i + 1)).bind fun ps => .ok (p :: ps)

/-- `readInternal(hid_t)`, include/MIPFieldIO.h:528-604. -/
def readInternal (cls : Name) (type : DataType) (path : Name) (g : Obj) : Res Lazy :=
  (getInts 6 kExtents g).bind fun _ =>
  (getInts 6 kDataWindow g).bind fun _ =>
  (getInt kComponents g).bind fun _ =>
  match named kMipGroup g.links with
  | some (.group as ls) =>
    (getInt kLevels (.group as ls)).bind fun n =>
    (readProxies (.group as ls) n.toNat 0).bind fun ps =>
    setupLazyLoad cls type ((List.range n.toNat).map (levelPath path)) ps
  | _ => .exception

/-- `MIPFieldIO::read(hid_t)`, src/MIPFieldIO.cpp:86-190, for a request of a voxel type. -/
def readMip (type : DataType) (path : Name) (g : Obj) : Res Lazy :=
  (getInt kVersion g).bind fun v =>
  if v ≠ 1 then .exception else
  (getInt kComponents g).bind fun components =>
  (getInt kBits g).bind fun b =>
  (getStr kBaseType g).bind fun base =>
  if components = dims type ∧ bitsMatch b type = true ∧ isVoxelType type = true then
    if base = denseClass ∨ base = sparseClass then readInternal base type path g else .null
  else .null

/-- `GenericLazyLoadActionHDF5::load`, include/MIPFieldIO.h:259-295, of level `i`, for a file with this root group. A group that
is not found and a null pointer raise exceptions. `e` is the voxel type of the field. The outer `none`: there is no such
level. -/
def loadLevel (conv : HType → HType → List UInt8 → List UInt8) (maxMem : Nat) (e : Elem α) (zero dflt : α) (root : Obj)
    (m : Lazy) (i : Nat) : Option (Res (AnyField α)) :=
  (m.paths[i]?).map fun path =>
    match openGroup root path with
    | none => .exception
    | some g =>
      match readAny conv maxMem e zero dflt path m.cls g with
      | .null => .exception
      | r => r

/-! ## Fields by class -/

/-- A field to be written: a MIP field comes with the class of its levels. -/
inductive Content (α : Type) where
  | single (f : AnyField α)
  | mip (cls : Name) (levels : List (AnyField α))

/-- `classType`, which `writeField` stores, src/Field3DFileHDF5.cpp:1589-1609. -/
def Content.cls : Content α → Name
  | .single f => f.cls
  | .mip _ _ => mipClass

def Content.write (gzip : Bool) (e : Elem α) : Content α → W
  | .single f => f.write gzip e
  | .mip cls levels => writeMip gzip e cls levels

/-- `readField`, export/Field3DFileHDF5.h:1643-1674, for a voxel type. -/
def readField (conv : HType → HType → List UInt8 → List UInt8) (maxMem : Nat) (e : Elem α) (zero dflt : α) (path cls : Name)
    (g : Obj) : Res (LayerIO.AnyField α) :=
  if cls = mipClass then (readMip e.type path g).bind fun m => .ok (.mip m MipField.Off.new.mappingChanged.offset)
  else (readAny conv maxMem e zero dflt path cls g).bind fun f =>
    match f with
    | .dense f => .ok (.dense f)
    | .sparse f => .ok (.sparse f)

end Hdf5
end F3D
