import Verif.Model.Hdf5
import Verif.Model.Files

/-!
# HDF5 files: partitions and layers

Models `Field3DFileHDF5Base`, `Field3DOutputFileHDF5` and `Field3DInputFileHDF5`, src/Field3DFileHDF5.cpp and
export/Field3DFileHDF5.h. Mappings and the IO classes of fields are parameters. The HDF5 library is modelled by what the
code relies on: names are paths, made of the parts between '/' that are neither empty nor "."; a path that begins with
'/' begins at the root; a group is made only where the name is free and the group above it exists; links and attributes
are visited in an order of the library. Left out: null field pointers, fields without mapping (`FieldRes` always has one),
overflow of the partition counters, the cache of fields in memory (see `Verif.Model.Cache` and `Registry`), failures of
the library for other reasons, the proxy layers.
-/

namespace F3D
namespace Hdf5
open Ogawa Og FieldIO
open MappingIO (kMapping)
open Metadata (Dict Meta V3f)
open Files (kGlobal kVersionNumber kClassName kIsPartition kClassType kLayerText kMetadata removeUniqueId intName nextIndex
  Listing Loaded FieldClass layerPath collect)

/-- "field3d_group_membership", src/Field3DFileHDF5.cpp:1157, 1515. -/
def kMembership : Name :=
  ascii ['f', 'i', 'e', 'l', 'd', '3', 'd', '_', 'g', 'r', 'o', 'u', 'p', '_', 'm', 'e', 'm', 'b', 'e', 'r', 's', 'h', 'i', 'p']

/-! ## Paths -/

/-- The pieces between slashes. -/
def splitSlash : Name → List Name
  | [] => [[]]
  | c :: r =>
    if c = 47 then [] :: splitSlash r
    else
      match splitSlash r with
      | [] => [[c]]
      | h :: t => (c :: h) :: t

/-- The steps of a path that is given as a C string. -/
def steps (s : Name) : List Name := (splitSlash (cstr s)).filter fun c => c ≠ [] ∧ c ≠ [46]

/-- Where a name leads from the group at `base`. -/
def locate (base : List Name) (s : Name) : List Name :=
  if (cstr s).head? = some 47 then steps s else base ++ steps s

/-- The object at the end of a path. -/
def Obj.at (o : Obj) : List Name → Option Obj
  | [] => some o
  | n :: p =>
    match named n o.links with
    | none => none
    | some k => k.at p

/-- `H5Gopen(file, s)`. -/
def openGroup (root : Obj) (s : Name) : Option Obj := (root.at (locate [] s)).filter Obj.isGroup

/-- The first with the name replaced. -/
def setNamed {T : Type} (n : Name) (v : T) : List (Name × T) → List (Name × T)
  | [] => []
  | p :: ps => if p.1 = n then (n, v) :: ps else p :: setNamed n v ps

/-- What `w` does to the group at the path. -/
def inside : List Name → W → W
  | [], w => w
  | n :: p, w => fun o =>
    match o with
    | .group as ls =>
      match named n ls with
      | none => (.failed, .group as ls)
      | some k =>
        let r := inside p w k
        (r.1, .group as (setNamed n r.2 ls))
    | .data d => (.failed, .data d)

/-- A new link to a new group. -/
def putGroup (n : Name) : W
  | .group as ls =>
    if (named n ls).isSome then (.failed, .group as ls) else (.ok, .group as (ls ++ [(n, .new)]))
  | o => (.failed, o)

/-- `H5Gcreate(group at base, s)`. -/
def makeGroup (base : List Name) (s : Name) : W := fun root =>
  match (locate base s).getLast? with
  | none => (.failed, root)
  | some n => if steps s = [] then (.failed, root) else inside (locate base s).dropLast (putGroup n) root

/-! ## Metadata -/

/-- `writeMetadata`, src/Field3DFileHDF5.cpp:1320-1397, and for the file, 1401-1479. -/
def writeMeta (m : Meta) : W :=
  W.all (m.str.map fun p => putAttr p.1 (.str p.2)) ⨾
  W.all (m.int.map fun p => putAttr p.1 (.ints [p.2])) ⨾
  W.all (m.float.map fun p => putAttr p.1 (.floats [p.2])) ⨾
  W.all (m.vecInt.map fun p => putAttr p.1 (.ints [p.2.x, p.2.y, p.2.z])) ⨾
  W.all (m.vecFloat.map fun p => putAttr p.1 (.floats [p.2.x, p.2.y, p.2.z]))

/-- The loop body of `readMetadata`, src/Field3DFileHDF5.cpp:843-937: attributes of other kinds and sizes are skipped. -/
def readAttr (m : Meta) (p : Name × Attr) : Meta :=
  match p.2 with
  | .str s => m.setStr p.1 (cstr s)
  | .ints [v] => m.setInt p.1 v
  | .ints [x, y, z] => m.setVecInt p.1 ⟨x, y, z⟩
  | .floats [v] => m.setFloat p.1 v
  | .floats [x, y, z] => m.setVecFloat p.1 ⟨x, y, z⟩
  | _ => m

/-- In which order the library visits links and attributes. -/
structure Order where
  links : List (Name × Obj) → List (Name × Obj)
  attrs : List (Name × Attr) → List (Name × Attr)

/-- `readMetadata`, src/Field3DFileHDF5.cpp:836-941 and 945-1051. -/
def readMeta (ord : Order) (g : Obj) (m : Meta) : Meta := (ord.attrs g.attrs).foldl readAttr m

/-! ## Writing -/

/-- What files need from mappings: `a->isIdentical(b)`, and `writeFieldMapping`, src/Field3DFileHDF5.cpp:1645-1665. -/
structure MapIO (M : Type) where
  ident : M → M → Bool
  write : M → W

/-- A call of `writeLayer`: the names, whether it is a vector layer, the mapping and metadata of the field, its class,
and what the IO class of the field does to the group. -/
structure Write (M : Type) where
  part : Name
  layer : Name
  isVec : Bool
  mapping : M
  info : Meta
  cls : Name
  body : W

/-- `FileHDF5::Partition`, export/Field3DFileHDF5.h:132-178. -/
structure Part (M : Type) where
  name : Name
  mapping : Option M
  scalar : List Name
  vector : List Name
deriving DecidableEq

/-- `Field3DOutputFileHDF5`: whether a file is open, what is in the file, `m_partitions` and `m_partitionCount`. -/
structure Out (M : Type) where
  isOpen : Bool
  root : Obj
  parts : List (Part M)
  count : Dict Nat

variable {M : Type}

/-- A new object. -/
def Out.new : Out M := ⟨false, .new, [], []⟩

/-- `close`, src/Field3DFileHDF5.cpp:496-517. -/
def Out.close (o : Out M) : Out M := { o with isOpen := false }

/-- `create`, src/Field3DFileHDF5.cpp:1239-1293: the partitions and their counters stay. `ok`: the file could be made, and
did not exist if that was asked for. -/
def Out.create (o : Out M) (ok : Bool) : Out M :=
  if ok then { o with isOpen := true, root := .group [(kVersionNumber, .ints [1, 7, 3])] [] } else { o with isOpen := false }

/-- The loop of `intPartitionName`, src/Field3DFileHDF5.cpp:321-328. The outer `none`: a partition without mapping. -/
def matching (C : MapIO M) (u : Name) (m : M) : List (Part M) → Option (Option Name)
  | [] => some none
  | p :: ps =>
    if removeUniqueId p.name = u then
      match p.mapping with
      | none => none
      | some pm => if C.ident pm m then some (some p.name) else matching C u m ps
    else matching C u m ps

/-- `partition(name)`, src/Field3DFileHDF5.cpp:345-368. -/
def findPart (n : Name) : List (Part M) → Option (Part M)
  | [] => none
  | p :: ps => if p.name = n then some p else findPart n ps

/-- A change of the object that `partition(name)` points at. -/
def change (n : Name) (f : Part M → Part M) : List (Part M) → List (Part M)
  | [] => []
  | p :: ps => if p.name = n then f p :: ps else p :: change n f ps

/-- `writeMapping`, src/Field3DFileHDF5.cpp:1297-1316, for the partition group at `p`. -/
def writeMapping (C : MapIO M) (p : List Name) (m : M) : W :=
  makeGroup p kMapping ⨾ inside (p ++ [kMapping]) (C.write m)

/-- `createNewPartition`, export/Field3DFileHDF5.h:1381-1441: `ok` is a partition, `failed` a null pointer. The
partition is in the list, without mapping, before the mapping is written. -/
def createPart (C : MapIO M) (n : Name) (m : M) (o : Out M) : Ret × Out M :=
  match makeGroup [] n o.root with
  | (.ok, root) =>
    let parts := o.parts ++ [⟨n, none, [], []⟩]
    match writeMapping C (locate [] n) m root with
    | (.ok, root) =>
      let parts := change n (fun p => { p with mapping := some m }) parts
      match inside (locate [] n) (putAttr kIsPartition (.str [49])) root with
      | (.ok, root) => (.ok, { o with root, parts })
      | (_, root) => (.failed, { o with root, parts })
    | (.crash, root) => (.crash, { o with root, parts })
    | (_, root) => (.failed, { o with root, parts })
  | (_, root) => (.failed, { o with root })

/-- What is put into the new group of a layer, export/Field3DFileHDF5.h:1540-1562, and `writeField`,
src/Field3DFileHDF5.cpp:1589-1609. -/
def layerWriter (w : Write M) : W :=
  putAttr kClassType (.str kLayerText) ⨾
  putGroup kMetadata ⨾
  inside [kMetadata] (writeMeta w.info) ⨾
  putAttr kClassName (.str w.cls) ⨾
  w.body

/-- `addVectorLayer` and `addScalarLayer`, src/Field3DFileHDF5.cpp:220-232. -/
def Part.add (p : Part M) (isVec : Bool) (l : Name) : Part M :=
  if isVec then { p with vector := p.vector ++ [l] } else { p with scalar := p.scalar ++ [l] }

/-- `vectorLayer(name)` or `scalarLayer(name)` is not null, src/Field3DFileHDF5.cpp:236-260. -/
def Part.has (p : Part M) (isVec : Bool) (l : Name) : Bool := decide (l ∈ if isVec then p.vector else p.scalar)

/-- The end of `writeLayer`, export/Field3DFileHDF5.h:1504-1573, with the partition `n`. -/
def addLayer (C : MapIO M) (w : Write M) (n : Name) (o : Out M) : Ret × Out M :=
  match findPart n o.parts with
  | none => (.crash, o)
  | some p =>
    match p.mapping with
    | none => (.failed, o)
    | some pm =>
      if C.ident w.mapping pm then
        match (makeGroup (locate [] n) w.layer ⨾ inside (locate (locate [] n) w.layer) (layerWriter w)) o.root with
        | (.ok, root) => (.ok, { o with root, parts := change n (fun p => p.add w.isVec w.layer) o.parts })
        | (r, root) => (r, { o with root })
      else (.failed, o)

/-- `createNewPartition` and the rest. -/
def addNew (C : MapIO M) (w : Write M) (n : Name) (o : Out M) : Ret × Out M :=
  match createPart C n w.mapping o with
  | (.ok, o) => addLayer C w n o
  | r => r

/-- With the name of the partition, export/Field3DFileHDF5.h:1474-1502, and `incrementPartitionName`,
src/Field3DFileHDF5.cpp:1545-1558. -/
def writeTo (C : MapIO M) (w : Write M) (n : Name) (o : Out M) : Ret × Out M :=
  match findPart n o.parts with
  | none => addNew C w n o
  | some p =>
    if p.has w.isVec w.layer then
      let k := nextIndex (removeUniqueId n) o.count
      addNew C w (intName (removeUniqueId n) k.1) { o with count := k.2 }
    else addLayer C w n o

/-- `writeLayer`, export/Field3DFileHDF5.h:1447-1573, with `intPartitionName`, src/Field3DFileHDF5.cpp:315-341. -/
def writeLayer (C : MapIO M) (w : Write M) (o : Out M) : Ret × Out M :=
  if o.isOpen then
    match matching C w.part w.mapping o.parts with
    | none => (.crash, o)
    | some none =>
      let k := nextIndex w.part o.count
      writeTo C w (intName w.part k.1) { o with count := k.2 }
    | some (some n) => writeTo C w n o
  else (.failed, o)

/-- `writeGlobalMetadata`, src/Field3DFileHDF5.cpp:1483-1500: without an open file the group cannot be made. -/
def writeGlobal (m : Meta) (o : Out M) : Ret × Out M :=
  if o.isOpen then
    match (makeGroup [] kGlobal ⨾ inside [kGlobal] (writeMeta m)) o.root with
    | (r, root) => (r, { o with root })
  else (.failed, o)

/-- Calls on an output file. -/
inductive Call (M : Type) where
  | create (ok : Bool)
  | close
  | write (w : Write M)
  | global (m : Meta)

def Out.step (C : MapIO M) (o : Out M) : Call M → Ret × Out M
  | .create ok => (if ok then .ok else .failed, o.create ok)
  | .close => (.ok, o.close)
  | .write w => writeLayer C w o
  | .global m => writeGlobal m o

/-- The results of calls, one after the other. After a crash nothing is said: the state is `none`. -/
def Out.run (C : MapIO M) (o : Out M) : List (Call M) → Option (List Ret × Out M)
  | [] => some ([], o)
  | c :: cs =>
    match o.step C c with
    | (.crash, _) => none
    | (r, o) => (Out.run C o cs).map fun x => (r :: x.1, x.2)

/-! ## Reading -/

/-- A partition of an input file. -/
structure InPart (L : Type) where
  name : Name
  mapping : L
  scalar : List Name
  vector : List Name

/-- `Field3DInputFileHDF5`: `m_partitionNames`, `m_partitions`, the metadata of the file, and the open file. -/
structure In (L : Type) where
  names : List Name
  parts : List (InPart L)
  info : Meta
  file : Option Obj

variable {L F : Type}

/-- A new object. -/
def In.new : In L := ⟨[], [], .empty, none⟩

/-- What `getScalarLayerNames`, `getVectorLayerNames` and `getPartitionNames` look at: src/Field3DFileHDF5.cpp:385-440.
They do the same as for Ogawa files. -/
def In.listing (i : In L) (isVec : Bool) : Listing := i.parts.map fun p => (p.name, if isVec then p.vector else p.scalar)
def Out.listing (o : Out M) (isVec : Bool) : Listing := o.parts.map fun p => (p.name, if isVec then p.vector else p.scalar)

/-- `parsePartitions`, src/Field3DFileHDF5.cpp:1132-1171, for every link of the root. -/
def partitionNames (ord : Order) (root : Obj) : List Name :=
  ((ord.links root.links).filter fun p => p.2.isGroup ∧ p.1 ≠ kMembership ∧ p.1 ≠ kGlobal).map (·.1)

/-- The mappings of all partitions, src/Field3DFileHDF5.cpp:729-755: a group that is not there, a null pointer and an
exception all end `open`. -/
def readMappings (readMap : Obj → Res L) (root : Obj) : List Name → Res (List (InPart L))
  | [] => .ok []
  | n :: ns =>
    match openGroup root (47 :: n ++ 47 :: kMapping) with
    | none => .exception
    | some g =>
      match readMap g with
      | .null => .exception
      | r => r.bind fun m => (readMappings readMap root ns).bind fun ps => .ok (⟨n, m, [], []⟩ :: ps)

/-- The number of components of a layer, `parseLayers`, src/Field3DFileHDF5.cpp:1175-1213, and `parseLayer`, 814-830: a
link that is not a layer has none. Exceptions stay inside, so what is incomplete is skipped. -/
def componentsOf (o : Obj) : Option Int :=
  if o.isGroup then
    match getStr kClassType o with
    | .ok t =>
      if t = kLayerText then
        match getInt kComponents o with
        | .ok c => some c
        | _ => none
      else none
    | _ => none
  else none

/-- The layers of a partition with so many components, src/Field3DFileHDF5.cpp:768-791. -/
def layersWith (ord : Order) (c : Int) (g : Obj) : List Name :=
  ((ord.links g.links).filter fun p => componentsOf p.2 = some c).map (·.1)

/-- The first partition with the name gets the layers. -/
def giveLayers (n : Name) (s v : List Name) : List (InPart L) → List (InPart L)
  | [] => []
  | p :: ps =>
    if p.name = n then { p with scalar := p.scalar ++ s, vector := p.vector ++ v } :: ps else p :: giveLayers n s v ps

/-- The layers of all partitions, src/Field3DFileHDF5.cpp:759-793. -/
def readAllLayers (ord : Order) (root : Obj) : List Name → List (InPart L) → List (InPart L)
  | [], ps => ps
  | n :: ns, ps =>
    match openGroup root n with
    | none => readAllLayers ord root ns ps
    | some g => readAllLayers ord root ns (giveLayers n (layersWith ord 1 g) (layersWith ord 3 g) ps)

/-- The version check of `open`, src/Field3DFileHDF5.cpp:611-628, and `isSupportedFileVersion`, 158-196: an attribute that
is missing or of another shape counts as supported. -/
def versionOk (root : Obj) : Bool :=
  match getInts 3 kVersionNumber root with
  | .ok [a, b, _] =>
    decide (a > 1 ∨ (a = 1 ∧ b > 7)) || decide (¬ (a < 0 ∨ (a = 0 ∧ b < 0)))
  | _ => true

/-- `open`, src/Field3DFileHDF5.cpp:586-702, of a file with this root, and `readPartitionAndLayerInfo`, 706-796: `none` is
a crash. The names found are added to those of files opened before; so is the metadata of the file. Simplified: the
partitions an object is left with when a file could not be opened are left out. -/
def In.openFile (ord : Order) (readMap : Obj → Res L) (root : Obj) (i : In L) : Option (Bool × In L) :=
  if versionOk root then
    let info := match openGroup root kGlobal with
      | none => i.info
      | some g => readMeta ord g i.info
    let names := i.names ++ partitionNames ord root
    match readMappings readMap root names with
    | .ok ps => some (true, ⟨names, readAllLayers ord root names ps, info, some root⟩)
    | .crash => none
    | .running => none
    | _ => some (false, ⟨names, [], info, none⟩)
  else some (false, ⟨i.names, [], i.info, none⟩)

/-- The first partition with the name. -/
def findIn (n : Name) : List (InPart L) → Option (InPart L)
  | [] => none
  | p :: ps => if p.name = n then some p else findIn n ps

/-- `readLayer`, export/Field3DFileHDF5.h:1052-1151, and `readField`, 1643-1674: `readField path cls group` is the reader of
the class for the type that was asked for; `null` also if there is no such class. -/
def In.readLayer [FieldClass F] (ord : Order) (i : In L) (readField : Name → Name → Obj → Res F) (isVec : Bool) (n l : Name) :
    Res (Loaded L F) :=
  match findIn n i.parts with
  | none => .null
  | some p =>
    if l ∈ (if isVec then p.vector else p.scalar) then
      match i.file.bind fun root => openGroup root (layerPath n l) with
      | none => .null
      | some g =>
        (getStr kClassName g).bind fun cls =>
        (readField (layerPath n l) cls g).bind fun f =>
        let m := match named kMetadata g.links with
          | some (.group as ls) => readMeta ord (.group as ls) (FieldClass.start f)
          | _ => FieldClass.start f
        let b := FieldClass.mapped f m
        .ok ⟨removeUniqueId n, l, some p.mapping, b.2, b.1⟩
    else .null

/-- `readScalarLayers(name)` and `readVectorLayers(name)`, export/Field3DFileHDF5.h:908-936 and 978-1004: the empty name
stands for all names. -/
def In.readAll [FieldClass F] (ord : Order) (i : In L) (readField : Name → Name → Obj → Res F) (isVec : Bool) (l : Name) :
    Res (List (Loaded L F)) :=
  collect <| (i.parts.map (·.name)).flatMap fun n =>
    ((((i.listing isVec).layersOf n).getD []).filter fun x => l = [] ∨ x = l).map fun x => i.readLayer ord readField isVec n x

/-- `readScalarLayers(partitionName, layerName)` and `readVectorLayers(partitionName, layerName)`,
export/Field3DFileHDF5.h:940-974 and 1008-1046. -/
def In.readLayers [FieldClass F] (ord : Order) (i : In L) (readField : Name → Name → Obj → Res F) (isVec : Bool)
    (u l : Name) : Res (List (Loaded L F)) :=
  if l = [] ∨ u = [] then .ok []
  else
    collect <| (i.parts.map (·.name)).flatMap fun n =>
      if removeUniqueId n = u then
        ((((i.listing isVec).layersOf n).getD []).filter fun x => x = l).map fun x => i.readLayer ord readField isVec n x
      else []

end Hdf5
end F3D
