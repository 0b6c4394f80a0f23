import Verif.Model.DynField
import Verif.Model.FieldIO

/-!
# Sparse fields that load their blocks from Ogawa files

`Verif.Model.DynField` represents a layer in a file by the field that was written. Here the layers are the groups of
the file (`Verif.Model.FieldIO`): opening a layer reads its attributes and its two small arrays, and every load of a
block opens the file again, finds the layer by its path and uncompresses one element of the data set.

Simplifications: those of `Verif.Model.DynField`; the files do not change while they are used.
-/

namespace F3D.LazyFile
open Ogawa Og FieldIO Dyn

/-- `filename` and `layerPath` of a reference, export/SparseFile.h:117-127: the children of the root group of the archive in
the file, and the path. -/
structure Source where
  root : List Tree
  path : Name

/-- `m_ogRoot->findGroup(layerPath)`, src/SparseFile.cpp:552-554, and the two lookups of src/Field3DFile.cpp:1539-1553. -/
def Source.layer (s : Source) : Option (Option (List Tree)) := find .group s.path s.root

/-- Undefined behaviour of the calls in `Verif.Model.DynField`. -/
def ofOption {β : Type} : Option β → Res β
  | none => .crash
  | some b => .ok b

variable {α : Type}

/-- The two loops over the blocks with `dynamicLoading`, src/SparseFieldIO.cpp:786-794, 810-813: flags and empty values,
no storage. -/
def setupLazy (alloc : List Bool) (empty : List α) (blocks : List (Block α)) : List (Block α) :=
  blocks.mapIdx fun i b =>
    match alloc[i]?, empty[i]? with
    | some a, some v => { b with isAllocated := a, emptyValue := v }
    | _, _ => b

/-- `SparseFieldIO::readData(OgIGroup)`, src/SparseFieldIO.cpp:730-842, with `doLimitMemUse()`: the field with its table,
and the number of occupied blocks. The attribute for compression is read (820-822) but not used. -/
def readData (e : Elem α) (zero dflt : α) (extents dw : Box3i) (order numBlocks : Nat) (kids : List Tree) :
    Res (Sparse α × Nat) :=
  let f := ((Sparse.empty zero).setSize zero extents dw).setBlockOrder zero order
  (attr .uint32 kOccupied kids).bind fun o =>
  (dataset .dataset .uint8 kAllocated kids).bind fun da =>
  (fetchArray byteElem (List.replicate numBlocks 0) da).bind fun alloc =>
  if f.blocks.length < numBlocks then .crash else
  let alloc := alloc.map fun b => decide (b ≠ 0)
  (dataset .dataset e.type kEmpty kids).bind fun de =>
  (fetchArray e (List.replicate numBlocks dflt) de).bind fun empty =>
  (attr .uint8 kCompressed kids).bind fun _ =>
  .ok ({ f with blocks := setupLazy alloc empty f.blocks }, unle o)

/-- `SparseFieldIO::read(OgIGroup)`, src/SparseFieldIO.cpp:460-624, for a request of the voxel type of `e`. -/
def readLayer (e : Elem α) (zero dflt : α) (kids : List Tree) : Res (Sparse α × Nat) :=
  (readWindows kids).bind fun w =>
  (attr .uint8 kComponents kids).bind fun _ =>
  (attr .uint8 kBlockOrder kids).bind fun o =>
  (attr .uint32 kNumBlocks kids).bind fun n =>
  (attr .veci32 kBlockRes kids).bind fun r =>
  let res := decV3i r
  if res.x * res.y * res.z ≠ decInt n then .exception else
  (attr .uint32 kOccupied kids).bind fun _ =>
  (attr .uint8 kCompressed kids).bind fun c =>
  match typeOf (if unle c = 0 then .dataset else .compressed) kData kids with
  | none => .crash
  | some t =>
    if t = some (le32 e.type.code) ∧ isVoxelType e.type = true then
      readData e zero dflt w.1 w.2 (unle o) (decInt n).toNat kids
    else .null

/-- Reading a layer with limited memory: `readLayer`, src/Field3DFile.cpp:1539-1578 (without a group the result is null),
and `addReference` and `setupReferenceBlocks`, src/SparseFieldIO.cpp:760-765, 824-827: the reference is set up if the file
says that blocks are occupied. -/
def openLayer (e : Elem α) (zero dflt : α) (disk : Nat → Source) (s : St α) (l : Nat) : Res (St α) :=
  match (disk l).layer with
  | none => .crash
  | some none => .null
  | some (some kids) => (readLayer e zero dflt kids).bind fun g =>
    let s1 := (s.newArr g.1.blocks).addRef l g.1.blocks.length
    let s2 := if 0 < g.2 then setupRef s1 s.nextR s.nextA g.1.blocks else s1
    .ok { s2 with flds := upd s.flds s.nextF
                    (some ⟨((Sparse.empty zero).setSize zero g.1.extents g.1.dw).setBlockOrder zero g.1.order, s.nextA,
                      some s.nextR⟩)
                  nextF := s.nextF + 1 }

/-- `Reference::openFile`, src/SparseFile.cpp:533-567, and the constructor of `OgSparseDataReader`,
include/OgSparseDataReader.h:120-166, which is always told that the data is compressed: the data set. Without a layer group the
file is tried as an HDF5 file, which fails with an exception. -/
def openReader (e : Elem α) (occupied : Nat) (src : Source) : Res (List Tree) :=
  match src.layer with
  | none => .crash
  | some none => .exception
  | some (some kids) =>
    (dataset .compressed e.type kData kids).bind fun d =>
    if numElements d ≠ occupied then .exception else
    match typeOf .compressed kData kids with
    | none => .crash
    | some t => if t = some (le32 e.type.code) then .ok d else .exception

/-- `numVoxels` and `occupiedBlocks` of the reference, src/SparseFieldIO.cpp:745-765: they were read from the layer when it was
opened, and copies of the field copy them; here they are read again. -/
def refNumbers (src : Source) : Res (Nat × Nat) :=
  match src.layer with
  | none => .crash
  | some none => .exception
  | some (some kids) =>
    (attr .uint8 kBlockOrder kids).bind fun o =>
    (attr .uint32 kOccupied kids).bind fun n => .ok (numVoxels (unle o), unle n)

/-- `Reference::loadBlock`, src/SparseFile.cpp:497-516: storage for the block, filled with its empty value, and the data read
into it. -/
def loadBlock (e : Elem α) (z : Zlib) (nv : Nat) (d : List Tree) (idx : Nat) (b : Block α) : Res (Block α) :=
  ofOption (readBlock e z nv true d idx (b.resize nv))

/-- `activateBlock`, export/SparseFile.h:1256-1290, without the eviction. For an Ogawa file `fileIsOpen` is never true
(export/SparseFile.h:670-673), so the file is opened for every load. -/
def activate (e : Elem α) (z : Zlib) (disk : Nat → Source) (s : St α) (r id : Nat) : Res (St α) :=
  (ofOption (s.refs r)).bind fun ref => (ofOption ref.fileIdx[id]?).bind fun fi =>
    if 0 ≤ fi then (ofOption ref.loaded[id]?).bind fun ld =>
      if ld then .ok s
      else (refNumbers (disk ref.layer)).bind fun nums => (openReader e nums.2 (disk ref.layer)).bind fun d =>
        (ofOption ref.arr).bind fun a => (ofOption (s.heap a)).bind fun bs => (ofOption bs[id]?).bind fun b =>
        (loadBlock e z nums.1 d fi.toNat b).bind fun b' =>
          .ok { s with heap := upd s.heap a (some (bs.set id b'))
                       refs := upd s.refs r (some { ref with loaded := ref.loaded.set id true })
                       cache := s.cache ++ [(r, id)] }
    else .ok s

/-- `value`/`fastValue`, export/SparseField.h:1613-1647. -/
def read (e : Elem α) (z : Zlib) (disk : Nat → Source) (s : St α) (f : Nat) (p : V3i) : Res (St α × α) :=
  (ofOption (s.flds f)).bind fun o => (ofOption (s.heap o.arr)).bind fun bs =>
    let g := { o.geom with blocks := bs }
    let id := g.blockId (g.blockCoord (g.offsetCoord p))
    let off := Block.offset g.order (g.voxelInBlock (g.offsetCoord p))
    (ofOption (g.block? id)).bind fun b =>
      if b.isAllocated then
        match o.file with
        | none => (ofOption (b.read off)).bind fun v => .ok (s, v)
        | some r =>
          (activate e z disk s r id.toNat).bind fun s => (ofOption (s.heap o.arr)).bind fun bs =>
            (ofOption (({ o.geom with blocks := bs } : Sparse α).block? id)).bind fun b =>
              (ofOption (b.read off)).bind fun v => .ok (s, v)
      else .ok (s, b.emptyValue)

end F3D.LazyFile
