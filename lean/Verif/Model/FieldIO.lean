import Verif.Model.Dense
import Verif.Model.Sparse
import Verif.Model.Og
import Verif.Model.BlockThreads

/-!
# Reading and writing fields in Ogawa layer groups

Models the Ogawa parts of src/DenseFieldIO.cpp, src/SparseFieldIO.cpp, src/MACFieldIO.cpp and
include/OgSparseDataReader.h, on top of the named entries of `Verif.Model.Og` and the threads of
`Verif.Model.BlockThreads`. A writer is the list of entries it adds to the layer group; a reader is a function of
the children of the layer group. zlib is a parameter.
-/

namespace F3D
namespace FieldIO
open Ogawa Og BlockThreads

/-- How a read ends: undefined behaviour, a C++ exception, a null pointer, a field, or (for a given schedule
prefix) not yet. -/
inductive Res (β : Type) where
  | crash
  | exception
  | null
  | running
  | ok (b : β)
deriving DecidableEq, Repr

def Res.bind {β γ : Type} (r : Res β) (f : β → Res γ) : Res γ :=
  match r with
  | .crash => .crash
  | .exception => .exception
  | .null => .null
  | .running => .running
  | .ok b => f b

/-- A voxel type: its type number in the file and its bytes in memory. -/
structure Elem (α : Type) where
  type : DataType
  enc : α → List UInt8
  dec : List UInt8 → α

/-- An array in memory. -/
def Elem.encAll {α : Type} (e : Elem α) (xs : List α) : List UInt8 := xs.flatMap e.enc

/-- Memory seen as an array of `n` values. -/
def Elem.decAll {α : Type} (e : Elem α) : Nat → List UInt8 → List α
  | 0, _ => []
  | n + 1, bs => e.dec (bs.take e.type.bytes) :: Elem.decAll e n (bs.drop e.type.bytes)

/-- `idata->read(size, data, 0, threadId)`, include/OgIDataset.h:209-213: the bytes are copied over the array
without looking at its size; more bytes than the array has is undefined (`none`). -/
def Elem.overlay {α : Type} (e : Elem α) (buf : List α) (bs : List UInt8) : Option (List α) :=
  if bs.length ≤ (e.encAll buf).length then
    some (e.decAll buf.length (bs ++ (e.encAll buf).drop bs.length))
  else none

/-! ## Names and small values -/

def ascii (cs : List Char) : Name := cs.map fun c => UInt8.ofNat c.toNat

/-- src/DenseFieldIO.cpp:68-78, src/SparseFieldIO.cpp:302-317. -/
def kVersion : Name := ascii ['v', 'e', 'r', 's', 'i', 'o', 'n']
def kExtMin : Name := ascii ['e', 'x', 't', 'e', 'n', 't', 's', '_', 'm', 'i', 'n']
def kExtMax : Name := ascii ['e', 'x', 't', 'e', 'n', 't', 's', '_', 'm', 'a', 'x']
def kDwMin : Name := ascii ['d', 'a', 't', 'a', '_', 'w', 'i', 'n', 'd', 'o', 'w', '_', 'm', 'i', 'n']
def kDwMax : Name := ascii ['d', 'a', 't', 'a', '_', 'w', 'i', 'n', 'd', 'o', 'w', '_', 'm', 'a', 'x']
def kComponents : Name := ascii ['c', 'o', 'm', 'p', 'o', 'n', 'e', 'n', 't', 's']
def kBits : Name := ascii ['b', 'i', 't', 's', '_', 'p', 'e', 'r', '_', 'c', 'o', 'm', 'p', 'o', 'n', 'e', 'n', 't']
def kData : Name := ascii ['d', 'a', 't', 'a']
def kBlockOrder : Name := ascii ['b', 'l', 'o', 'c', 'k', '_', 'o', 'r', 'd', 'e', 'r']
def kNumBlocks : Name := ascii ['n', 'u', 'm', '_', 'b', 'l', 'o', 'c', 'k', 's']
def kBlockRes : Name := ascii ['b', 'l', 'o', 'c', 'k', '_', 'r', 'e', 's']
def kOccupied : Name :=
  ascii ['n', 'u', 'm', '_', 'o', 'c', 'c', 'u', 'p', 'i', 'e', 'd', '_', 'b', 'l', 'o', 'c', 'k', 's']
def kCompressed : Name :=
  ascii ['d', 'a', 't', 'a', '_', 'i', 's', '_', 'c', 'o', 'm', 'p', 'r', 'e', 's', 's', 'e', 'd']
def kAllocated : Name :=
  ascii ['b', 'l', 'o', 'c', 'k', '_', 'i', 's', '_', 'a', 'l', 'l', 'o', 'c', 'a', 't', 'e', 'd', '_', 'd', 'a', 't', 'a']
def kEmpty : Name :=
  ascii ['b', 'l', 'o', 'c', 'k', '_', 'e', 'm', 'p', 't', 'y', '_', 'v', 'a', 'l', 'u', 'e', '_', 'd', 'a', 't', 'a']

/-- `int32_t` in memory (two's complement, little endian). -/
def encInt (i : Int) : List UInt8 := le32 (i % 2 ^ 32).toNat
def decInt (bs : List UInt8) : Int := let n := unle bs; if n < 2 ^ 31 then n else n - 2 ^ 32

/-- `veci32_t` in memory. -/
def encV3i (v : V3i) : List UInt8 := encInt v.x ++ encInt v.y ++ encInt v.z
def decV3i (bs : List UInt8) : V3i := ⟨decInt (bs.take 4), decInt ((bs.drop 4).take 4), decInt ((bs.drop 8).take 4)⟩

/-- Dimensions and bits per component of the voxel types: `FieldTraits::dataDims`, `DataTypeTraits::h5bits`,
export/Traits.h. -/
def dims : DataType → Nat
  | .vec16 => 3 | .vec32 => 3 | .vec64 => 3
  | _ => 1
def bits : DataType → Nat
  | .float16 => 16 | .vec16 => 16 | .float64 => 64 | .vec64 => 64
  | _ => 32

/-- The types a layer can be asked for: the tests on `typeEnum`, src/DenseFieldIO.cpp:245-257,
src/SparseFieldIO.cpp:601-620. -/
def isVoxelType : DataType → Bool
  | .float16 => true | .float32 => true | .float64 => true
  | .vec16 => true | .vec32 => true | .vec64 => true
  | _ => false

/-- `findAttribute<T>(name)`, the check of `isValid` and `value()`. A stored value of the wrong size gives the
default value zero. (In the code some lookups are made before the check of an earlier one; this matters only when one
lookup crashes.) -/
def attr (t : DataType) (nm : Name) (kids : List Tree) : Res (List UInt8) :=
  match findTyped .attribute t nm kids with
  | none => .crash
  | some none => .exception
  | some (some a) =>
    match attributeValue t (some a) with
    | none => .crash
    | some none => .ok (List.replicate t.bytes 0)
    | some (some v) => .ok v

/-- `findDataset<T>` with the check of `isValid`. -/
def dataset (k : Kind) (t : DataType) (nm : Name) (kids : List Tree) : Res (List Tree) :=
  match findTyped k t nm kids with
  | none => .crash
  | some none => .exception
  | some (some d) => .ok d

/-! ## Dense fields -/

/-- The entries for the two windows, src/DenseFieldIO.cpp:488-496, src/SparseFieldIO.cpp:1060-1066. -/
def windowEntries (extents dw : Box3i) : List Entry :=
  [.attribute kExtMin .veci32 (encV3i extents.min), .attribute kExtMax .veci32 (encV3i extents.max),
   .attribute kDwMin .veci32 (encV3i dw.min), .attribute kDwMax .veci32 (encV3i dw.max)]

/-- `DenseFieldIO::write(OgOGroup)`, src/DenseFieldIO.cpp:318-365, and `writeInternal`, 477-515: the number of values
is the product of `internalMemSize`. -/
def denseEntries {α : Type} (e : Elem α) (f : Dense α) : List Entry :=
  let length := (f.memXY * f.dw.res.z).toNat
  [.attribute kVersion .int32 (encInt 1)] ++ windowEntries f.extents f.dw ++
  [.attribute kComponents .int32 (encInt (dims e.type)), .attribute kBits .int32 (encInt (bits e.type)),
   .dataset kData e.type [e.encAll (f.data.take length)]]

/-- The attributes read by both readers: src/DenseFieldIO.cpp:179-222, src/SparseFieldIO.cpp:473-521. -/
def readWindows (kids : List Tree) : Res (Box3i × Box3i) :=
  (attr .int32 kVersion kids).bind fun v =>
  if decInt v ≠ 1 then .exception else
  (attr .veci32 kExtMin kids).bind fun a =>
  (attr .veci32 kExtMax kids).bind fun b =>
  (attr .veci32 kDwMin kids).bind fun c =>
  (attr .veci32 kDwMax kids).bind fun d =>
  .ok (⟨decV3i a, decV3i b⟩, ⟨decV3i c, decV3i d⟩)

/-- `DenseFieldIO::readData(OgIGroup)`, src/DenseFieldIO.cpp:560-582. -/
def readDenseData {α : Type} (e : Elem α) (dflt : α) (extents dw : Box3i) (kids : List Tree) : Res (Dense α) :=
  match Dense.setSize dflt extents dw with
  | .resizeException => .exception
  | .ok f =>
    (dataset .dataset e.type kData kids).bind fun d =>
    match element d 0 with
    | none => .exception
    | some bs =>
      match e.overlay f.data bs with
      | none => .crash
      | some data => .ok { f with data }

/-- `DenseFieldIO::read(OgIGroup)`, src/DenseFieldIO.cpp:167-263, for a request of the voxel type of `e`. -/
def readDense {α : Type} (e : Elem α) (dflt : α) (kids : List Tree) : Res (Dense α) :=
  (readWindows kids).bind fun w =>
  (attr .int32 kComponents kids).bind fun _ =>
  match typeOf .dataset kData kids with
  | none => .crash
  | some t =>
    if t = some (le32 e.type.code) ∧ isVoxelType e.type = true then readDenseData e dflt w.1 w.2 kids else .null

/-! ## Sparse fields -/

/-- zlib: `compress2`, `uncompress` with room for `n` bytes (`none`: an error status) and `compressBound`. -/
structure Zlib where
  comp : List UInt8 → List UInt8
  decomp : Nat → List UInt8 → Option (List UInt8)
  bound : Nat → Nat

/-- Allocation flags. -/
def flags {α : Type} (f : Sparse α) : List Bool := f.blocks.map (·.isAllocated)

/-- `1 << (order * 3)`, without overflow of the `int` shift. -/
def numVoxels (order : Nat) : Nat := 2 ^ (order * 3)

/-- What a writing thread stores for block `i`, src/SparseFieldIO.cpp:234-246: `none` is an access past the table,
through a null pointer or past the end of the block (for instance a block of a dynamically loaded field that is not in
memory). -/
def blockBytes {α : Type} (e : Elem α) (z : Zlib) (f : Sparse α) (i : Nat) : Option (List UInt8) :=
  match f.blocks[i]? with
  | none => none
  | some b =>
    match b.data with
    | none => none
    | some d => if numVoxels f.order ≤ d.length then some (z.comp (e.encAll (d.take (numVoxels f.order)))) else none

/-- `SparseFieldIO::writeInternal(OgOGroup)`, src/SparseFieldIO.cpp:1043-1129, with `write`, 678-685, when the threads
added the blocks in the order `log`. `none`: undefined behaviour. -/
def sparseEntries {α : Type} (e : Elem α) (z : Zlib) (f : Sparse α) (log : List Nat) : Option (List Entry) :=
  let numBlocks := (f.bres.x * f.bres.y * f.bres.z).toNat
  let occupied := ((f.blocks.take numBlocks).filter (·.isAllocated)).length
  match log.mapM (blockBytes e z f) with
  | none => none
  | some els => some <|
    [.attribute kVersion .int32 (encInt 1)] ++ windowEntries f.extents f.dw ++
    [.attribute kComponents .uint8 [UInt8.ofNat (dims e.type)], .attribute kBits .uint8 [UInt8.ofNat (bits e.type)],
     .attribute kBlockOrder .uint8 [UInt8.ofNat f.order], .attribute kNumBlocks .uint32 (le32 numBlocks),
     .attribute kBlockRes .veci32 (encV3i f.bres), .attribute kCompressed .uint8 [1],
     .dataset kAllocated .uint8 [(f.blocks.take numBlocks).map fun b => if b.isAllocated then 1 else 0],
     .dataset kEmpty e.type [e.encAll ((f.blocks.take numBlocks).map (·.emptyValue))],
     .attribute kOccupied .uint32 (le32 occupied),
     .compressed kData e.type els]

/-- The whole write with the threads of src/SparseFieldIO.cpp:1113-1125. -/
def writeSparse {α : Type} (e : Elem α) (z : Zlib) (threads : Nat) (sched : List Nat) (oob : Bool) (f : Sparse α) :
    Res (List Entry) :=
  let s := (WState.init threads (flags f)).run (flags f) oob sched
  if (flags f).any id then
    if s.th.all (· = .done) then
      match sparseEntries e z f s.log with
      | none => .crash
      | some es => .ok es
    else .running
  else
    match sparseEntries e z f [] with
    | none => .crash
    | some es => .ok es

/-- `blockIdxToDatasetIdx[i]` of an allocated block, src/SparseFieldIO.cpp:787-796. -/
def datasetIdx (alloc : List Bool) (i : Nat) : Nat := ((alloc.take i).filter id).length

/-- `OgSparseDataReader::readBlock`, include/OgSparseDataReader.h:182-213, into a block: `none` is undefined behaviour
(a missing compressed element, one larger than the cache, an uncompressed one larger than the block). A failed
`uncompress` prints a message and leaves the block (what it may have written is not modelled). -/
def readBlock {α : Type} (e : Elem α) (z : Zlib) (nv : Nat) (isCompressed : Bool) (d : List Tree) (idx : Nat)
    (b : Block α) : Option (Block α) :=
  match b.data with
  | none => none
  | some buf =>
    if isCompressed then
      match element d idx with
      | none => none
      | some bs =>
        if bs.length ≤ z.bound (nv * e.type.bytes) then
          match z.decomp (nv * e.type.bytes) bs with
          | none => some b
          | some raw => (e.overlay buf raw).map fun data => { b with data := some data }
        else none
    else
      match element d idx with
      | none => some b
      | some bs => (e.overlay buf bs).map fun data => { b with data := some data }

/-- The reading threads, src/SparseFieldIO.cpp:822-836. A block that met undefined behaviour is `none`. -/
def readBlocks {α : Type} (e : Elem α) (z : Zlib) (nv : Nat) (isCompressed : Bool) (d : List Tree)
    (alloc : List Bool) (threads : Nat) (sched : List Nat) (blocks : List (Block α)) : Res (List (Block α)) :=
  let s := (RState.init threads (blocks.map some)).run (fun b => b.any (·.isAllocated))
    (fun i b => b.bind (readBlock e z nv isCompressed d (datasetIdx alloc i))) sched
  if s.th.all (· = .done) then
    match s.blocks.mapM id with
    | none => .crash
    | some bs => .ok bs
  else .running

/-- Setting the first `numBlocks` blocks up from the two arrays, src/SparseFieldIO.cpp:786-813: flag, storage for the
allocated ones, empty value. -/
def setupRead {α : Type} (nv : Nat) (alloc : List Bool) (empty : List α) (blocks : List (Block α)) : List (Block α) :=
  blocks.mapIdx fun i b =>
    match alloc[i]?, empty[i]? with
    | some a, some v =>
      let b := { b with isAllocated := a }
      { (if a then b.resize nv else b) with emptyValue := v }
    | _, _ => b

/-- `OgIDataset<uint8_t>` bytes. -/
def byteElem : Elem UInt8 := ⟨.uint8, fun b => [b], fun bs => bs.headD 0⟩

/-- `getData(0, buf)` whose result is ignored, src/SparseFieldIO.cpp:785, 809: an absent element leaves the array. -/
def fetchArray {β : Type} (e : Elem β) (buf : List β) (d : List Tree) : Res (List β) :=
  match element d 0 with
  | none => .ok buf
  | some bs =>
    match e.overlay buf bs with
    | none => .crash
    | some r => .ok r

/-- `SparseFieldIO::readData(OgIGroup)`, src/SparseFieldIO.cpp:730-842, without the cache (`doLimitMemUse()` false).
`zero` is `static_cast<Data_T>(0)`, `dflt` is `Data_T()`. -/
def readSparseData {α : Type} (e : Elem α) (z : Zlib) (zero dflt : α) (threads : Nat) (sched : List Nat)
    (extents dw : Box3i) (order numBlocks : Nat) (kids : List Tree) : Res (Sparse α) :=
  let f := ((Sparse.empty zero).setSize zero extents dw).setBlockOrder zero order
  let nv := numVoxels order
  (attr .uint32 kOccupied kids).bind fun o =>
  let occupied := unle o
  (dataset .dataset .uint8 kAllocated kids).bind fun da =>
  (fetchArray byteElem (List.replicate numBlocks 0) da).bind fun alloc =>
  if f.blocks.length < numBlocks then .crash else
  let alloc := alloc.map fun b => decide (b ≠ 0)
  (dataset .dataset e.type kEmpty kids).bind fun de =>
  (fetchArray e (List.replicate numBlocks dflt) de).bind fun empty =>
  let blocks := setupRead nv alloc empty f.blocks
  (attr .uint8 kCompressed kids).bind fun c =>
  let isCompressed := decide (unle c ≠ 0)
  if 0 < occupied then
    (dataset (if isCompressed then .compressed else .dataset) e.type kData kids).bind fun d =>
    if numElements d ≠ occupied then .exception else
    (readBlocks e z nv isCompressed d alloc threads sched blocks).bind fun bs =>
    .ok { f with blocks := bs }
  else .ok { f with blocks := blocks }

/-- `SparseFieldIO::read(OgIGroup)`, src/SparseFieldIO.cpp:460-624, for a request of the voxel type of `e`. -/
def readSparse {α : Type} (e : Elem α) (z : Zlib) (zero dflt : α) (threads : Nat) (sched : List Nat)
    (kids : List Tree) : Res (Sparse α) :=
  (readWindows kids).bind fun w =>
  (attr .uint8 kComponents kids).bind fun _ =>
  (attr .uint8 kBlockOrder kids).bind fun o =>
  (attr .uint32 kNumBlocks kids).bind fun n =>
  (attr .veci32 kBlockRes kids).bind fun r =>
  let res := decV3i r
  if res.x * res.y * res.z ≠ decInt n then .exception else
  (attr .uint32 kOccupied kids).bind fun _ =>
  (attr .uint8 kCompressed kids).bind fun c =>
  match typeOf (if unle c = 0 then .dataset else .compressed) kData kids with
  | none => .crash
  | some t =>
    if t = some (le32 e.type.code) ∧ isVoxelType e.type = true then
      readSparseData e z zero dflt threads sched w.1 w.2 (unle o) (decInt n).toNat kids
    else .null

/-! ## MAC fields -/

/-- `MACFieldIO::write(OgOGroup)`, src/MACFieldIO.cpp:207-210: the entries written (none) and the result. -/
def writeMac {φ : Type} (_ : φ) : List Entry × Bool := ([], true)

/-- `MACFieldIO::read(OgIGroup)`, src/MACFieldIO.cpp:158-164. -/
def readMac {φ : Type} (_ : List Tree) : Res φ := .null

end FieldIO
end F3D
