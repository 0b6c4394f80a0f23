import Verif.Model.Files
import Verif.Model.Resample

/-!
# Reading and writing MIP fields in Ogawa layer groups

Models the Ogawa parts of src/MIPFieldIO.cpp and include/MIPFieldIO.h, and `setupLazyLoad` of export/MIPField.h. The levels
of a field that is read are loaded later, by load actions that open the file again: `loadLevel` is given the root group of
the file as it is then. Left out: HDF5 files, the mutexes (`Verif.Model.MipLoad` has the threads), the mapping and metadata
of loaded levels (`Verif.Model.MipMapping`), `m_relativeResolution`, levels of MAC fields (not supported).
-/

namespace F3D
namespace MipIO
open Ogawa Og FieldIO
open MappingIO (decimal)

/-- `DenseField::staticClassName`, export/DenseField.h:135-138, which `className` returns. -/
def denseClass : Name := ascii ['D', 'e', 'n', 's', 'e', 'F', 'i', 'e', 'l', 'd']
/-- `SparseField::staticClassName`, export/SparseField.h:368-371. -/
def sparseClass : Name := ascii ['S', 'p', 'a', 'r', 's', 'e', 'F', 'i', 'e', 'l', 'd']
/-- `MIPField::staticClassName`, export/MIPField.h:176-179. -/
def mipClass : Name := ascii ['M', 'I', 'P', 'F', 'i', 'e', 'l', 'd']

/-- src/MIPFieldIO.cpp:66-80; the other names are those of `Verif.Model.FieldIO`. -/
def kMipGroup : Name := ascii ['m', 'i', 'p', '_', 'l', 'e', 'v', 'e', 'l', 's']
def kLevel : Name := ascii ['l', 'e', 'v', 'e', 'l']
def kLevels : Name := ascii ['l', 'e', 'v', 'e', 'l', 's']
def kBaseType : Name := ascii ['b', 'a', 's', 'e', '_', 't', 'y', 'p', 'e']
def kDummy : Name := ascii ['d', 'u', 'm', 'm', 'y', '_', 'd', 'a', 't', 'a']

/-- The name of the group of a level, include/MIPFieldIO.h:512-513 and 697-698. -/
def levelName (i : Nat) : Name := kLevel ++ 46 :: decimal i

/-- A dense or sparse field. -/
inductive Single (α : Type) where
  | dense (f : Dense α)
  | sparse (f : Sparse α)

def Single.cls {α : Type} : Single α → Name
  | .dense _ => denseClass
  | .sparse _ => sparseClass
def Single.extents {α : Type} : Single α → Box3i
  | .dense f => f.extents
  | .sparse f => f.extents
def Single.dw {α : Type} : Single α → Box3i
  | .dense f => f.dw
  | .sparse f => f.dw

/-! ## Writing -/

/-- A level of a MIP field to be written. A sparse one comes with the entries that its threads have put together
(`writeSparse`). -/
inductive Level (α : Type) where
  | dense (f : Dense α)
  | sparse (f : Sparse α) (es : List Entry)

def Level.single {α : Type} : Level α → Single α
  | .dense f => .dense f
  | .sparse f _ => .sparse f

/-- What the IO class of the level adds to its group. -/
def Level.entries {α : Type} (e : Elem α) : Level α → List Entry
  | .dense f => denseEntries e f
  | .sparse _ es => es

/-- The groups of the levels from number `i` on, include/MIPFieldIO.h:507-521, with what the IO class of the level adds to
each. -/
def levelEntries : Nat → List (List Entry) → List Entry
  | _, [] => []
  | i, es :: l => .group (levelName i) es :: levelEntries (i + 1) l

/-- `MIPFieldIO::write(OgOGroup)`, src/MIPFieldIO.cpp:390-465, and `writeInternal`, include/MIPFieldIO.h:470-524, for a MIP
field with these windows whose levels are of class `cls`. -/
def mipEntries (type : DataType) (cls : Name) (extents dw : Box3i) (levels : List (List Entry)) : List Entry :=
  [.attribute kVersion .int32 (encInt 1)] ++ windowEntries extents dw ++
  [.attribute kComponents .uint8 [UInt8.ofNat (dims type)], .attribute kBits .uint8 [UInt8.ofNat (bits type)],
   .attribute kBaseType .string cls, .dataset kDummy type [],
   .group kMipGroup (.attribute kLevels .uint32 (le32 levels.length) :: levelEntries 0 levels)]

/-- The same for a MIP field that was set up with these levels: its windows are those of level 0, export/MIPField.h:407
and 676-682. -/
def writeMip {α : Type} (e : Elem α) (cls : Name) : List (Level α) → List Entry
  | [] => []
  | l :: ls => mipEntries e.type cls l.single.extents l.single.dw ((l :: ls).map (Level.entries e))

/-! ## Reading -/

/-- A MIP field whose levels are loaded on demand: the class of the levels, the windows, `mipResolution` of each level, the
paths in the load actions and the voxel type they ask for. -/
structure Lazy where
  cls : Name
  type : DataType
  extents : Box3i
  dw : Box3i
  res : List V3i
  paths : List Name
deriving DecidableEq, Repr

/-- The windows of a level, for the proxy: include/MIPFieldIO.h:696-733. -/
def readProxy (mip : List Tree) (i : Nat) : Res (Box3i × Box3i) :=
  match find .group (levelName i) mip with
  | none => .crash
  | some g =>
    let kids := g.getD []
    (attr .veci32 kExtMin kids).bind fun a =>
    (attr .veci32 kExtMax kids).bind fun b =>
    (attr .veci32 kDwMin kids).bind fun c =>
    (attr .veci32 kDwMax kids).bind fun d =>
    .ok (⟨decV3i a, decV3i b⟩, ⟨decV3i c, decV3i d⟩)

/-- The loop over `n` levels from number `i` on, include/MIPFieldIO.h:695-740: the proxies. -/
def readProxies (mip : List Tree) : Nat → Nat → Res (List (Box3i × Box3i))
  | 0, _ => .ok []
  | n + 1, i => (readProxy mip i).bind fun p => (readProxies mip n (i + 1)).bind fun ps => .ok (p :: ps)

/-- `fullPath`, include/MIPFieldIO.h:736-737. -/
def levelPath (layerPath : Name) (i : Nat) : Name := layerPath ++ 47 :: (kMipGroup ++ 47 :: levelName i)

/-- `mipResolution` of a level: `extents().size() + V3i(1)`, export/MIPField.h:456. -/
def mipRes (extents : Box3i) : V3i := ⟨extents.size.x + 1, extents.size.y + 1, extents.size.z + 1⟩

/-- `setupLazyLoad`, export/MIPField.h:427-461, with `sanityChecks`, 718-758, and `updateMapping`, 676-682. -/
def setupLazyLoad (cls : Name) (type : DataType) (paths : List Name) : List (Box3i × Box3i) → Res Lazy
  | [] => .exception
  | p :: ps =>
    if Resample.decreasing p.1.size (ps.map fun q => q.1.size) then
      .ok ⟨cls, type, p.1, p.2, (p :: ps).map fun q => mipRes q.1, paths⟩
    else .exception

/-- `readInternal(OgIGroup)`, include/MIPFieldIO.h:608-745. A missing group has no attributes. The number of levels is an
`int`. -/
def readInternal (cls : Name) (type : DataType) (path : Name) (kids : List Tree) : Res Lazy :=
  (attr .uint8 kComponents kids).bind fun _ =>
  match find .group kMipGroup kids with
  | none => .crash
  | some g =>
    let mip := g.getD []
    (attr .uint32 kLevels mip).bind fun v =>
    let n := (decInt v).toNat
    (readProxies mip n 0).bind fun ps =>
    setupLazyLoad cls type ((List.range n).map (levelPath path)) ps

/-- `MIPFieldIO::read(OgIGroup)`, src/MIPFieldIO.cpp:194-299, for a request of a voxel type. -/
def readMip (type : DataType) (path : Name) (kids : List Tree) : Res Lazy :=
  (attr .int32 kVersion kids).bind fun v =>
  if decInt v ≠ 1 then .exception else
  (attr .uint8 kComponents kids).bind fun _ =>
  (attr .string kBaseType kids).bind fun base =>
  match typeOf .dataset kDummy kids with
  | none => .crash
  | some t =>
    if t = some (le32 type.code) ∧ isVoxelType type = true then
      if base = denseClass ∨ base = sparseClass then readInternal base type path kids else .null
    else .null

/-- The IO class of a level: `createFieldIO(Field_T::staticClassName())->read`. The threads that read blocks of a sparse
field run with the given schedule. -/
def readSingle {α : Type} (e : Elem α) (z : Zlib) (zero dflt : α) (threads : Nat) (sched : List Nat) (cls : Name)
    (kids : List Tree) : Res (Single α) :=
  if cls = denseClass then (readDense e dflt kids).bind fun f => .ok (.dense f)
  else if cls = sparseClass then (readSparse e z zero dflt threads sched kids).bind fun f => .ok (.sparse f)
  else .null

/-- `GenericLazyLoadAction::load`, include/MIPFieldIO.h:344-367, of level `i`, for a file with this root group. A group that
is not found and a null pointer raise exceptions. `e` is the voxel type of the field. The outer `none`: there is no such
level. -/
def loadLevel {α : Type} (e : Elem α) (z : Zlib) (zero dflt : α) (threads : Nat) (sched : List Nat) (root : List Tree)
    (m : Lazy) (i : Nat) : Option (Res (Single α)) :=
  (m.paths[i]?).map fun path =>
    match find .group path root with
    | none => .crash
    | some none => .exception
    | some (some kids) =>
      match readSingle e z zero dflt threads sched m.cls kids with
      | .null => .exception
      | r => r

end MipIO
end F3D
