import Verif.Model.FieldIO
import Verif.Model.Hdf5Blocks
import Verif.Model.Mac

/-!
# Fields in HDF5 layer groups

Models the HDF5 parts of src/DenseFieldIO.cpp, src/SparseFieldIO.cpp, src/MACFieldIO.cpp, include/MACFieldIO.h and
the helpers of src/Hdf5Util.cpp and export/Hdf5Util.h. The HDF5 library is modelled by what the code relies on: a file
is a tree of groups with attributes; making something under a name that is taken fails; a chunk of no elements is
refused, and so is one larger than the (fixed) dimensions; what was written under a type is read back under that type
bit by bit. Left out: the dynamic loading of blocks, the mutex, failures of the library for other reasons (full disk,
limits on sizes).
-/

namespace F3D
namespace Hdf5
open Ogawa Og FieldIO

/-! ## Files -/

/-- The native types in use, `DataTypeTraits<T>::h5type`, export/Traits.h. -/
inductive HType where
  | char | short | int | float | double
deriving DecidableEq, Repr

def HType.size : HType → Nat
  | .char => 1 | .short => 2 | .int => 4 | .float => 4 | .double => 8

/-- Attributes: a string of fixed size, or an array of one dimension, or the arrays of mappings. A `float` is its bit
pattern, a matrix the 128 bytes of its `double`s. -/
inductive Attr where
  | str (s : List UInt8)
  | ints (v : List Int)
  | floats (v : List UInt32)
  | array16 (m : List UInt8)
  | array4x4 (m : List UInt8)
deriving DecidableEq, Repr

/-- A dataset: the bytes of a dataset of two dimensions row by row; of one dimension there is one row. -/
structure DataSet where
  type : HType
  dims : List Nat
  rows : List (List UInt8)
deriving DecidableEq, Repr

/-- What a link leads to. -/
inductive Obj where
  | group (attrs : List (Name × Attr)) (links : List (Name × Obj))
  | data (d : DataSet)

/-- A new group. -/
def Obj.new : Obj := .group [] []

def Obj.attrs : Obj → List (Name × Attr)
  | .group as _ => as
  | .data _ => []
def Obj.links : Obj → List (Name × Obj)
  | .group _ ls => ls
  | .data _ => []
def Obj.isGroup : Obj → Bool
  | .group _ _ => true
  | .data _ => false

/-- The first with the name. -/
def named {T : Type} (n : Name) : List (Name × T) → Option T
  | [] => none
  | p :: ps => if p.1 = n then some p.2 else named n ps

/-- `c_str()`: names end at the first NUL. -/
def cstr (n : Name) : Name := n.takeWhile (· ≠ 0)

/-! ## Writing to a group -/

/-- How a write ends: undefined behaviour, an exception, `false`, `true`. -/
inductive Ret where
  | crash
  | threw
  | failed
  | ok
deriving DecidableEq, Repr

/-- A part of a writer, given an open group: what it returns and what the group is then. -/
abbrev W := Obj → Ret × Obj

/-- One after the other, as long as things go well. -/
def W.seq (a b : W) : W := fun g =>
  match a g with
  | (.ok, g) => b g
  | r => r

infixr:65 " ⨾ " => W.seq

/-- `if (!...) throw`. -/
def must (a : W) : W := fun g =>
  match a g with
  | (.failed, g) => (.threw, g)
  | r => r

def done : W := fun g => (.ok, g)

/-- Several parts. -/
def W.all : List W → W
  | [] => done
  | a :: as => a ⨾ W.all as

/-- `writeAttribute`, src/Hdf5Util.cpp:383-520: `H5Acreate` refuses an empty name and one that is taken. -/
def putAttr (n : Name) (v : Attr) : W
  | .group as ls =>
    if cstr n = [] ∨ (named (cstr n) as).isSome then (.failed, .group as ls)
    else (.ok, .group (as ++ [(cstr n, v)]) ls)
  | o => (.failed, o)

/-- `H5Dcreate` and `H5Dwrite` of everything: names that are taken, and chunks larger than the dataset, are refused. -/
def putData (n : Name) (chunk : Option (List Nat)) (d : DataSet) : W
  | .group as ls =>
    if (named n ls).isSome ∨ (chunk.any fun c => (c.zip d.dims).any fun p => decide (p.2 < p.1)) = true then
      (.failed, .group as ls)
    else (.ok, .group as (ls ++ [(n, .data d)]))
  | o => (.failed, o)

/-! ## Reading from a group -/

/-- `readAttribute` for an array of `k` integers, src/Hdf5Util.cpp:117-154: everything unexpected is an exception. -/
def getInts (k : Nat) (n : Name) (g : Obj) : Res (List Int) :=
  match named n g.attrs with
  | some (.ints v) => if v.length = k then .ok v else .exception
  | _ => .exception

/-- One integer. -/
def getInt (n : Name) (g : Obj) : Res Int := (getInts 1 n g).bind fun v => .ok (v.headD 0)

/-- `readAttribute` for a string, src/Hdf5Util.cpp:79-113: the text ends at the first NUL. -/
def getStr (n : Name) (g : Obj) : Res (List UInt8) :=
  match named n g.attrs with
  | some (.str s) => .ok (cstr s)
  | _ => .exception

/-- `H5Dopen`. -/
def getData (n : Name) (g : Obj) : Res DataSet :=
  match named n g.links with
  | some (.data d) => .ok d
  | _ => .exception

/-- `H5Sget_simple_extent_dims` into an array of one: more dimensions are written past its end, without any it is not
set. -/
def extent1 (d : DataSet) : Res Nat :=
  match d.dims with
  | [n] => .ok n
  | _ => .crash

/-- The bytes of everything as `H5Dread` delivers them to memory of the type `t`: converted (`conv`) if the dataset has
another type. -/
def DataSet.bytesAs (conv : HType → HType → List UInt8 → List UInt8) (t : HType) (d : DataSet) : List UInt8 :=
  if d.type = t then d.rows.flatten else conv d.type t d.rows.flatten

/-! ## Names and types -/

/-- src/DenseFieldIO.cpp:66-72, src/SparseFieldIO.cpp:300-308, src/MACFieldIO.cpp:66-74. -/
def kExtents : Name := ascii ['e', 'x', 't', 'e', 'n', 't', 's']
def kDataWindow : Name := ascii ['d', 'a', 't', 'a', '_', 'w', 'i', 'n', 'd', 'o', 'w']
def kUData : Name := ascii ['u', '_', 'd', 'a', 't', 'a']
def kVData : Name := ascii ['v', '_', 'd', 'a', 't', 'a']
def kWData : Name := ascii ['w', '_', 'd', 'a', 't', 'a']

/-- `DataTypeTraits<T>::h5type`, export/Traits.h. -/
def htype : DataType → HType
  | .float16 => .short | .vec16 => .short
  | .float64 => .double | .vec64 => .double
  | .int8 => .char | .uint8 => .char
  | _ => .float

/-- The six numbers of a box as they are in memory. -/
def boxInts (b : Box3i) : List Int := [b.min.x, b.min.y, b.min.z, b.max.x, b.max.y, b.max.z]
def boxOf : List Int → Box3i
  | [a, b, c, d, e, f] => ⟨⟨a, b, c⟩, ⟨d, e, f⟩⟩
  | _ => ⟨⟨0, 0, 0⟩, ⟨0, 0, 0⟩⟩

/-- Conversion of a `hsize_t` to `int`. -/
def asInt (n : Nat) : Int := ((n : Int) + 2 ^ 31) % 2 ^ 32 - 2 ^ 31

/-- Whether an `int` holds the number. -/
def fitsInt (i : Int) : Prop := -2 ^ 31 ≤ i ∧ i < 2 ^ 31
instance (i : Int) : Decidable (fitsInt i) := by unfold fitsInt; infer_instance

/-- Chunks of datasets of one dimension, src/DenseFieldIO.cpp:392-393, include/MACFieldIO.h:270-271. -/
def chunkSize (total : Nat) : Nat := min (4096 * 16) (total / 2)

/-- Making the dataset, src/DenseFieldIO.cpp:440-470 and 525-533, include/MACFieldIO.h:273-315: with gzip there are
chunks, and `H5Pset_chunk` refuses chunks of no elements. -/
def putChunked (gzip : Bool) (n : Name) (type : HType) (total : Nat) (bytes : List UInt8) : W :=
  if gzip then
    if chunkSize total = 0 then fun g => (.failed, g)
    else must (putData n (some [chunkSize total]) ⟨type, [total], [bytes]⟩)
  else must (putData n none ⟨type, [total], [bytes]⟩)

/-! ## Dense fields -/

/-- `DenseFieldIO::write(hid_t)` and `writeInternal`, src/DenseFieldIO.cpp:265-315 and 374-471. The total is a product
of `int`s; `H5Dwrite` reads as many values from the memory of the field. -/
def writeDense {α : Type} (gzip : Bool) (e : Elem α) (f : Dense α) : W :=
  let voxels := f.memXY * f.dw.res.z
  let total := voxels * dims e.type
  must (putAttr kVersion (.ints [1])) ⨾
  (if fitsInt f.memXY ∧ fitsInt voxels ∧ fitsInt total ∧ voxels.toNat ≤ f.data.length then
    must (putAttr kExtents (.ints (boxInts f.extents))) ⨾
    must (putAttr kDataWindow (.ints (boxInts f.dw))) ⨾
    must (putAttr kComponents (.ints [(dims e.type : Int)])) ⨾
    putAttr kBits (.ints [(bits e.type : Int)]) ⨾
    putChunked gzip kData (htype e.type) total.toNat (e.encAll (f.data.take voxels.toNat))
  else fun g => (.crash, g))

/-- The version and the windows, src/DenseFieldIO.cpp:93-110, src/SparseFieldIO.cpp:336-352, src/MACFieldIO.cpp:91-106.
-/
def readWindows (g : Obj) : Res (Box3i × Box3i) :=
  (getInt kVersion g).bind fun v =>
  if v ≠ 1 then .exception else
  (getInts 6 kExtents g).bind fun a =>
  (getInts 6 kDataWindow g).bind fun b =>
  .ok (boxOf a, boxOf b)

/-- `H5Dread` of everything into an array of voxels: more values than it has room for are written past its end. -/
def readInto {α : Type} (conv : HType → HType → List UInt8 → List UInt8) (e : Elem α) (d : DataSet) (buf : List α) :
    Res (List α) :=
  match e.overlay buf (d.bytesAs conv (htype e.type)) with
  | none => .crash
  | some r => .ok r

/-- `DenseFieldIO::read(hid_t)`, src/DenseFieldIO.cpp:81-163, and `readData`, 537-556, for a request of the voxel type of
`e`. -/
def readDense {α : Type} (conv : HType → HType → List UInt8 → List UInt8) (e : Elem α) (dflt : α) (g : Obj) :
    Res (Dense α) :=
  (readWindows g).bind fun w =>
  (getInt kComponents g).bind fun components =>
  (getData kData g).bind fun d =>
  (extent1 d).bind fun n =>
  let size := w.2.max - w.2.min + V3i.all 1
  if ¬ (fitsInt (size.x * size.y) ∧ fitsInt (size.x * size.y * size.z)) then .crash else
  if components = 0 then .crash else
  let reported := if components < 0 then 0 else asInt (n / components.toNat)
  if size.x * size.y * size.z ≠ reported then .exception else
  if d.type = htype e.type ∧ components = dims e.type ∧ isVoxelType e.type = true then
    match Dense.setSize dflt w.1 w.2 with
    | .resizeException => .exception
    | .ok f => (readInto conv e d f.data).bind fun data => .ok { f with data }
  else .null

/-! ## MAC fields -/

/-- The three components in the order of `writeInternal`, include/MACFieldIO.h:220-232. -/
def writeMacComp (gzip : Bool) (e : Elem Rat) (n : Name) (c : Mac.Comp) : W :=
  if fitsInt c.data.length then must (putChunked gzip n (htype e.type) c.data.length (e.encAll c.data))
  else fun g => (.crash, g)

/-- `MACFieldIO::write(hid_t)`, src/MACFieldIO.cpp:168-203, and `writeInternal`, include/MACFieldIO.h:181-316. `e` is
the type of one component. A dataset that cannot be made is an exception in any case. -/
def writeMac (gzip : Bool) (e : Elem Rat) (f : Mac) : W :=
  must (putAttr kVersion (.ints [1])) ⨾
  must (putAttr kExtents (.ints (boxInts f.extents))) ⨾
  must (putAttr kDataWindow (.ints (boxInts f.dw))) ⨾
  must (putAttr kComponents (.ints [3])) ⨾
  must (putAttr kBits (.ints [(bits e.type : Int)])) ⨾
  writeMacComp gzip e kUData f.cu ⨾ writeMacComp gzip e kVData f.cv ⨾ writeMacComp gzip e kWData f.cw

/-- A component, include/MACFieldIO.h:330-355: its size is not looked at. -/
def readMacComp (conv : HType → HType → List UInt8 → List UInt8) (e : Elem Rat) (n : Name) (c : Mac.Comp) (g : Obj) :
    Res Mac.Comp :=
  (getData n g).bind fun d =>
  (extent1 d).bind fun _ =>
  (readInto conv e d c.data).bind fun data => .ok { c with data }

/-- The type asked for belongs to the number of bits, the `switch` of src/MACFieldIO.cpp:117-151 and
src/SparseFieldIO.cpp:394-404: every other number counts as 32. -/
def bitsMatch (b : Int) (t : DataType) : Bool :=
  if b = 16 then htype t = .short else if b = 64 then htype t = .double else htype t = .float

/-- `MACFieldIO::read(hid_t)`, src/MACFieldIO.cpp:78-154, and `readData`, include/MACFieldIO.h:321-414. `init` is a new
field. -/
def readMac (conv : HType → HType → List UInt8 → List UInt8) (e : Elem Rat) (init : Mac) (g : Obj) : Res Mac :=
  (readWindows g).bind fun w =>
  (getInt kComponents g).bind fun _ =>
  (getInt kBits g).bind fun b =>
  if bitsMatch b e.type then
    match init.setSize w.1 w.2 with
    | none => .exception
    | some f =>
      (readMacComp conv e kUData f.cu g).bind fun cu =>
      (readMacComp conv e kVData f.cv g).bind fun cv =>
      (readMacComp conv e kWData f.cw g).bind fun cw =>
      .ok { f with cu, cv, cw }
  else .null

/-! ## Sparse fields -/

/-- `writeSimpleData`, export/Hdf5Util.h:573-606: no chunks. -/
def putSimple (n : Name) (type : HType) (total : Nat) (bytes : List UInt8) : W :=
  must (putData n none ⟨type, [total], [bytes]⟩)

/-- The bytes of an allocated block as they are written, src/SparseFieldIO.cpp:1020-1024: a block that has no data (it
is not in memory) or not enough is undefined behaviour (`none`). -/
def rowBytes {α : Type} (e : Elem α) (order : Nat) (b : Block α) : Option (List UInt8) :=
  match b.data with
  | none => none
  | some d => if numVoxels order ≤ d.length then some (e.encAll (d.take (numVoxels order))) else none

/-- The loop over blocks, src/SparseFieldIO.cpp:1003-1036: the next allocated block goes to the next row. -/
def rowsOf {α : Type} (e : Elem α) (order : Nat) (blocks : List (Block α)) : Option (List (List UInt8)) :=
  (blocks.filter (·.isAllocated)).mapM (rowBytes e order)

/-- `SparseFieldIO::write(hid_t)` and `writeInternal`, src/SparseFieldIO.cpp:628-675 and 850-1039. -/
def writeSparse {α : Type} (gzip : Bool) (e : Elem α) (f : Sparse α) : W :=
  let numBlocks := (f.bres.x * f.bres.y * f.bres.z).toNat
  let blocks := f.blocks.take numBlocks
  let perBlock := numVoxels f.order * dims e.type
  let occupied := (blocks.filter (·.isAllocated)).length
  putAttr kVersion (.ints [1]) ⨾
  (if fitsInt perBlock ∧ fitsInt (f.bres.x * f.bres.y) ∧ fitsInt (f.bres.x * f.bres.y * f.bres.z) ∧
      numBlocks ≤ f.blocks.length then
    putAttr kExtents (.ints (boxInts f.extents)) ⨾
    putAttr kDataWindow (.ints (boxInts f.dw)) ⨾
    putAttr kComponents (.ints [(dims e.type : Int)]) ⨾
    putAttr kBlockOrder (.ints [(f.order : Int)]) ⨾
    putAttr kNumBlocks (.ints [f.bres.x * f.bres.y * f.bres.z]) ⨾
    putAttr kBlockRes (.ints [f.bres.x, f.bres.y, f.bres.z]) ⨾
    putAttr kBits (.ints [(bits e.type : Int)]) ⨾
    putSimple kAllocated .char numBlocks (blocks.map fun b => if b.isAllocated then 1 else 0) ⨾
    putSimple kEmpty (htype e.type) (numBlocks * dims e.type) (e.encAll (blocks.map (·.emptyValue))) ⨾
    must (putAttr kOccupied (.ints [(occupied : Int)])) ⨾
    (if 0 < occupied then
      match rowsOf e f.order blocks with
      | none => fun g => (.crash, g)
      | some rows =>
        must (putData kData (if gzip then some [1, perBlock] else none) ⟨htype e.type, [occupied, perBlock], rows⟩)
    else done)
  else fun g => (.crash, g))

/-- `readSimpleData`, export/Hdf5Util.h:611-652: the array gets the size of the dataset, divided (rounding down) by the
number of components. `dflt` is `T()`. -/
def getSimple {β : Type} (conv : HType → HType → List UInt8 → List UInt8) (e : Elem β) (dflt : β) (n : Name) (g : Obj) :
    Res (List β) :=
  (getData n g).bind fun d =>
  (extent1 d).bind fun k =>
  readInto conv e d (List.replicate (k / dims e.type) dflt)

/-- What `SparseDataReader::readBlockList` finds, export/SparseDataReader.h:203-231: `none` is an exception. (In the
code the dataset is opened and checked again for every pass.) -/
def getRows (conv : HType → HType → List UInt8 → List UInt8) (t : HType) (perBlock : Nat) (occupied : Int) (g : Obj) :
    Res (List (List UInt8)) :=
  (getData kData g).bind fun d =>
  match d.dims with
  | [r, c] =>
    if c = perBlock ∧ (r : Int) = occupied then
      .ok (if d.type = t then d.rows else d.rows.map (conv d.type t))
    else .exception
  | _ => .crash

/-- `SparseFieldIO::readData(hid_t)`, src/SparseFieldIO.cpp:1135-1240, without dynamic loading: flags and empty values
of the first `numBlocks` blocks, then the rows, in passes of at most `maxMem` (50 MB) and one block. `zero` is
`static_cast<Data_T>(0)`, `dflt` is `Data_T()`. -/
def readSparseData {α : Type} (conv : HType → HType → List UInt8 → List UInt8) (maxMem : Nat) (e : Elem α) (dflt : α)
    (f : Sparse α) (numBlocks : Nat) (g : Obj) : Res (Sparse α) :=
  let nv := numVoxels f.order
  (getInt kOccupied g).bind fun occupied =>
  (getSimple conv byteElem 0 kAllocated g).bind fun alloc =>
  if f.blocks.length < numBlocks ∨ alloc.length < numBlocks then .crash else
  let flags := (alloc.take numBlocks).map fun b => decide (b ≠ 0)
  (getSimple conv e dflt kEmpty g).bind fun empty =>
  if empty.length < numBlocks then .crash else
  let blocks := setupRead nv flags (empty.take numBlocks) f.blocks
  if 0 < occupied ∧ flags.any id then
    (getRows conv (htype e.type) (nv * dims e.type) occupied g).bind fun rows =>
    match Hdf5Blocks.passes maxMem (e.type.bytes * nv) (rows.map fun r => some (e.decAll nv r))
        (Hdf5Blocks.numbered flags) 0 (blocks.map (·.data)) with
    | none => .exception
    | some ds => .ok { f with blocks := blocks.mapIdx fun i b => { b with data := (ds[i]?).getD b.data } }
  else .ok { f with blocks := blocks }

/-- `SparseFieldIO::read(hid_t)`, src/SparseFieldIO.cpp:320-457, for a request of the voxel type of `e`. A negative number
of blocks makes the constructor of a vector throw. -/
def readSparse {α : Type} (conv : HType → HType → List UInt8 → List UInt8) (maxMem : Nat) (e : Elem α) (zero dflt : α)
    (g : Obj) : Res (Sparse α) :=
  (readWindows g).bind fun w =>
  (getInt kComponents g).bind fun components =>
  (getInt kBlockOrder g).bind fun order =>
  (getInt kNumBlocks g).bind fun numBlocks =>
  (getInts 3 kBlockRes g).bind fun r =>
  let r0 := r.getD 0 0
  let r1 := r.getD 1 0
  let r2 := r.getD 2 0
  if ¬ (fitsInt (r0 * r1) ∧ fitsInt (r0 * r1 * r2)) then .crash else
  if r0 * r1 * r2 ≠ numBlocks then .exception else
  if numBlocks < 0 then .exception else
  (getInt kOccupied g).bind fun _ =>
  (getInt kBits g).bind fun b =>
  if components = dims e.type ∧ bitsMatch b e.type = true ∧ isVoxelType e.type = true then
    if order < 0 ∨ ¬ fitsInt (numVoxels order.toNat * dims e.type) then .crash else
    let f := ((Sparse.empty zero).setSize zero w.1 w.2).setBlockOrder zero order.toNat
    readSparseData conv maxMem e dflt f numBlocks.toNat g
  else .null

end Hdf5
end F3D
