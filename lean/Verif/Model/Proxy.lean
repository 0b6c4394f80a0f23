import Verif.Model.FileObject
import Verif.Model.MipIO

/-!
# Proxy layers

Models `readProxyLayer`, `readProxyScalarLayers` and `readProxyVectorLayers` of both file formats, src/Field3DFile.cpp and
export/Field3DFileHDF5.h, and the fields that they make, export/EmptyField.h. The voxel type that is asked for has no part in
it. Left out: null mappings of partitions, the size of fields in memory.
-/

namespace F3D
namespace Proxy
open Ogawa Og FieldIO
open Metadata (Meta)
open Files (kMetadata Loaded Listing removeUniqueId layerPath)
open MipIO (kMipGroup kLevels)

/-! ## The field -/

/-- `EmptyField`, export/EmptyField.h:84-173: the windows, and the two values, which the constructor does not set.
`m_ignoredData` is never read. -/
structure Empty (α : Type) where
  extents : Box3i
  dw : Box3i
  dflt : Option α
  const : Option α

variable {α : Type}

/-- The constructor, export/EmptyField.h:179-184, and that of `FieldRes`. -/
def Empty.new : Empty α := ⟨⟨⟨0, 0, 0⟩, ⟨-1, -1, -1⟩⟩, ⟨⟨0, 0, 0⟩, ⟨-1, -1, -1⟩⟩, none, none⟩

/-- Calls that change a field: `setSize`, `clear`, `setConstantvalue`, and a write through `lvalue`. -/
inductive EmptyOp (α : Type) where
  | setSize (extents dw : Box3i)
  | clear (v : α)
  | setConstant (v : α)
  | write (p : V3i) (v : α)

/-- export/EmptyField.h:188-192, 226-250. `none`: a voxel outside the data window, which an assertion catches. -/
def Empty.step (f : Empty α) : EmptyOp α → Option (Empty α)
  | .setSize e d => some { f with extents := e, dw := d }
  | .clear v => some { f with dflt := some v, const := some v }
  | .setConstant v => some { f with const := some v }
  | .write p _ => if f.dw.contains p then some f else none

def Empty.run (f : Empty α) : List (EmptyOp α) → Option (Empty α)
  | [] => some f
  | o :: os => (f.step o).bind fun f => Empty.run f os

/-- `value`, export/EmptyField.h:196-212: `none` is a value that was never set, or a voxel outside the data window. -/
def Empty.value (f : Empty α) (p : V3i) : Option α := if f.dw.contains p then f.dflt else none

/-- `constantvalue`, export/EmptyField.h:254-259. -/
def Empty.constant (f : Empty α) : Option α := f.const

/-! ## Reading one -/

/-- What a proxy has of the layer: its windows. -/
structure Windows where
  extents : Box3i
  dw : Box3i
deriving DecidableEq, Repr

/-- The field that is made, src/Field3DFile.cpp:1734-1735, export/Field3DFileHDF5.h:1268-1269. -/
def Windows.field (w : Windows) : Empty α := { (Empty.new : Empty α) with extents := w.extents, dw := w.dw }

/-- "mip_levels", src/Field3DFile.cpp:1834, export/Field3DFileHDF5.h:1225: as the name of metadata. -/
def kMipLevels : Name := kMipGroup

/-- The loops over layers: the first that is not there, a null result, ends them all. -/
def gather {β : Type} : List (Res β) → Res (List β)
  | [] => .ok []
  | r :: rs => r.bind fun b => (gather rs).bind fun bs => .ok (b :: bs)

/-- `return emptyList`. -/
def orEmpty {β : Type} : Res (List β) → Res (List β)
  | .null => .ok []
  | r => r

/-! ## Ogawa -/

/-- The windows, src/Field3DFile.cpp:1689-1731: a missing attribute is an exception. -/
def windows (kids : List Tree) : Res Windows :=
  (attr .veci32 kExtMin kids).bind fun a =>
  (attr .veci32 kExtMax kids).bind fun b =>
  (attr .veci32 kDwMin kids).bind fun c =>
  (attr .veci32 kDwMax kids).bind fun d =>
  .ok ⟨⟨decV3i a, decV3i b⟩, ⟨decV3i c, decV3i d⟩⟩

/-- The number of levels, src/Field3DFile.cpp:1824-1833: zero if there are none. The outer `none` is undefined behaviour. -/
def levels (kids : List Tree) : Option Int :=
  match find .group kMipGroup kids with
  | none => none
  | some none => some 0
  | some (some mk) =>
    match findTyped .attribute .uint32 kLevels mk with
    | none => none
    | some none => some 0
    | some (some a) => (attributeValue .uint32 (some a)).map fun v => decInt (v.getD (List.replicate 4 0))

/-- `readProxyLayer(OgIGroup, ...)`, src/Field3DFile.cpp:1678-1749, and the number of levels, 1824-1834. -/
def body (kids : List Tree) : Res (Windows × Meta) :=
  (windows kids).bind fun w =>
  match find .group kMetadata kids with
  | none => .crash
  | some g =>
    match (match g with | none => some Meta.empty | some mk => Metadata.readMeta mk Meta.empty) with
    | none => .crash
    | some m =>
      match levels kids with
      | none => .crash
      | some k => .ok (w, m.setInt kMipLevels k)

variable {L : Type}

/-- One layer of the loop of `readProxyLayer(partitionName, layerName)`, src/Field3DFile.cpp:1789-1836: `null` stands for
`return emptyList`. -/
def readAt (i : Files.In L) (u n l : Name) : Res (Loaded L Windows) :=
  match Files.findIn n i.parts with
  | none => .null
  | some p =>
    if l ∈ p.layers then
      match find .group n i.root with
      | none => .crash
      | some none => .null
      | some (some pk) =>
        match find .group l pk with
        | none => .crash
        | some none => .null
        | some (some lk) =>
          if valid lk then (body lk).bind fun b => .ok ⟨u, l, p.mapping, b.2, b.1⟩
          else .null
    else .null

/-- `readProxyLayer(partitionName, layerName, isVectorLayer)`, src/Field3DFile.cpp:1753-1850: the lists of scalar and vector
layers are the same, 576-612. -/
def readLayer (i : Files.In L) (_isVec : Bool) (u l : Name) : Res (List (Loaded L Windows)) :=
  if l = [] ∨ u = [] then .ok []
  else
    orEmpty <| gather <| (i.parts.map (·.name)).flatMap fun n =>
      if removeUniqueId n = u then
        (((i.listing.layersOf n).getD []).filter fun x => x = l).map fun x => readAt i u n x
      else []

/-- The names in a listing, in the order of `readProxyScalarLayers` and `readProxyVectorLayers`, src/Field3DFile.cpp:1866-1874
and 1901-1909; the empty name stands for all. -/
def wanted (ps : Listing) (l : Name) : List (Name × Name) :=
  ps.partitionNames.flatMap fun u => ((ps.layerNames u).filter fun x => l = [] ∨ x = l).map fun x => (u, x)

/-- `readProxyScalarLayers` and `readProxyVectorLayers`, src/Field3DFile.cpp:1854-1922. -/
def readAll (i : Files.In L) (isVec : Bool) (l : Name) : Res (List (Loaded L Windows)) :=
  (gather ((wanted i.listing l).map fun x => readLayer i isVec x.1 x.2)).bind fun r => .ok r.flatten

/-! ## HDF5 -/

/-- A box from the six integers of its corners. -/
def boxOf (v : List Int) : Box3i := ⟨⟨v.getD 0 0, v.getD 1 0, v.getD 2 0⟩, ⟨v.getD 3 0, v.getD 4 0, v.getD 5 0⟩⟩

/-- `readProxyLayer(hid_t, ...)`, export/Field3DFileHDF5.h:1243-1285, and the number of levels, 1220-1225. -/
def bodyHdf5 (ord : Hdf5.Order) (g : Hdf5.Obj) : Res (Windows × Meta) :=
  (Hdf5.getInts 6 Hdf5.kExtents g).bind fun e =>
  (Hdf5.getInts 6 Hdf5.kDataWindow g).bind fun d =>
  let m := match Hdf5.named kMetadata g.links with
    | some (.group as ls) => Hdf5.readMeta ord (.group as ls) .empty
    | _ => .empty
  (match Hdf5.named kMipGroup g.links with
    | some (.group as ls) => Hdf5.getInt kLevels (.group as ls)
    | _ => .ok 0).bind fun k =>
  .ok (⟨boxOf e, boxOf d⟩, m.setInt kMipLevels k)

/-- One layer of the loop of `readProxyLayer(partitionName, layerName)`, export/Field3DFileHDF5.h:1187-1228. -/
def readAtHdf5 (ord : Hdf5.Order) (i : Hdf5.In L) (isVec : Bool) (u n l : Name) : Res (Loaded L Windows) :=
  match Hdf5.findIn n i.parts with
  | none => .null
  | some p =>
    if l ∈ (if isVec then p.vector else p.scalar) then
      match i.file.bind fun root => Hdf5.openGroup root (layerPath n l) with
      | none => .null
      | some g => (bodyHdf5 ord g).bind fun b => .ok ⟨u, l, some p.mapping, b.2, b.1⟩
    else .null

/-- `readProxyLayer(partitionName, layerName, isVectorLayer)`, export/Field3DFileHDF5.h:1155-1239. -/
def readLayerHdf5 (ord : Hdf5.Order) (i : Hdf5.In L) (isVec : Bool) (u l : Name) : Res (List (Loaded L Windows)) :=
  if l = [] ∨ u = [] then .ok []
  else
    orEmpty <| gather <| (i.parts.map (·.name)).flatMap fun n =>
      if removeUniqueId n = u then
        ((((i.listing isVec).layersOf n).getD []).filter fun x => x = l).map fun x => readAtHdf5 ord i isVec u n x
      else []

/-- `readProxyScalarLayers` and `readProxyVectorLayers`, export/Field3DFileHDF5.h:1289-1353. -/
def readAllHdf5 (ord : Hdf5.Order) (i : Hdf5.In L) (isVec : Bool) (l : Name) : Res (List (Loaded L Windows)) :=
  (gather ((wanted (i.listing isVec) l).map fun x => readLayerHdf5 ord i isVec x.1 x.2)).bind fun r => .ok r.flatten

/-! ## Either -/

/-- `Field3DInputFile::readProxyLayer`, src/Field3DFile.cpp:1763-1766. -/
def readLayerOf (R : FileObject.Maps L) (s : FileObject.In L) (isVec : Bool) (u l : Name) : Res (List (Loaded L Windows)) :=
  match s.hdf5 with
  | some h => readLayerHdf5 R.ord h isVec u l
  | none => readLayer s.own isVec u l

/-- `readProxyScalarLayers` and `readProxyVectorLayers` of `Field3DInputFile`, src/Field3DFile.cpp:1854-1922: the lists of
names are those of the HDF5 object, if there is one. -/
def readAllOf (R : FileObject.Maps L) (s : FileObject.In L) (isVec : Bool) (l : Name) : Res (List (Loaded L Windows)) :=
  (gather ((wanted (s.listing isVec) l).map fun x => readLayerOf R s isVec x.1 x.2)).bind fun r => .ok r.flatten

end Proxy
end F3D
