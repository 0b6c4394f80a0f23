import Verif.Model.MappingIO

/-!
# Files: partitions and layers

Models `Field3DFileBase`, `Field3DOutputFile` and `Field3DInputFile` for Ogawa files, src/Field3DFile.cpp and
export/Field3DFile.h: how layers are put into partitions, how partitions are named, what is listed and what is found
again. Mappings and the IO classes of fields are parameters. Left out: HDF5 files, null field pointers, fields without
mapping (`FieldRes` always has one), exceptions thrown by the IO class of a field, overflow of the partition counters,
the cache of fields in memory (see `Verif.Model.Cache` and `Registry`), mappings changed after they were written.
-/

namespace F3D
namespace Files
open Ogawa Og FieldIO
open MappingIO (decimal kMapping)
open Metadata (Dict Meta nameLt readMeta)

/-- "field3d_global_metadata", src/Field3DFile.cpp:771, 870, 1241. -/
def kGlobal : Name :=
  ascii ['f', 'i', 'e', 'l', 'd', '3', 'd', '_', 'g', 'l', 'o', 'b', 'a', 'l', '_', 'm', 'e', 't', 'a', 'd', 'a', 't', 'a']
/-- src/Field3DFile.cpp:90-94, 1399, 1489, 1492. -/
def kVersionNumber : Name := ascii ['v', 'e', 'r', 's', 'i', 'o', 'n', '_', 'n', 'u', 'm', 'b', 'e', 'r']
def kClassName : Name := ascii ['c', 'l', 'a', 's', 's', '_', 'n', 'a', 'm', 'e']
def kIsPartition : Name :=
  ascii ['i', 's', '_', 'f', 'i', 'e', 'l', 'd', '3', 'd', '_', 'p', 'a', 'r', 't', 'i', 't', 'i', 'o', 'n']
def kClassType : Name := ascii ['c', 'l', 'a', 's', 's', '_', 't', 'y', 'p', 'e']
def kLayerText : Name := ascii ['f', 'i', 'e', 'l', 'd', '3', 'd', '_', 'l', 'a', 'y', 'e', 'r']
def kMetadata : Name := ascii ['m', 'e', 't', 'a', 'd', 'a', 't', 'a']

/-! ## Names -/

/-- The text before the last '.', if there is one. -/
def beforeDot (n : Name) : Option Name :=
  match n.reverse.dropWhile (· ≠ 46) with
  | [] => none
  | _ :: r => some r.reverse

/-- `removeUniqueId`, src/Field3DFile.cpp:478-487. -/
def removeUniqueId (n : Name) : Name :=
  match beforeDot n with
  | none => n
  | some p => p

/-- `makeIntPartitionName`, src/Field3DFile.cpp:671-675. -/
def intName (u : Name) (i : Nat) : Name := u ++ 46 :: decimal i

/-- Neighbouring equal elements removed: `std::unique`. -/
def uniq : List Name → List Name
  | [] => []
  | [a] => [a]
  | a :: b :: l => if a = b then uniq (b :: l) else a :: uniq (b :: l)

/-- `makeUnique`, src/Field3DFile.cpp:106-116. -/
def makeUnique (l : List Name) : List Name := uniq (l.mergeSort fun a b => !nameLt b a)

/-! ## Listing

Both kinds of file objects keep a list of partitions with the names of their layers. -/

abbrev Listing := List (Name × List Name)

/-- `partition(name)`, src/Field3DFile.cpp:451-474: the first with the name. -/
def Listing.layersOf (ps : Listing) (n : Name) : Option (List Name) :=
  match ps with
  | [] => none
  | p :: ps => if p.1 = n then some p.2 else Listing.layersOf ps n

/-- `getPartitionNames`, src/Field3DFile.cpp:491-508. -/
def Listing.partitionNames (ps : Listing) : List Name := makeUnique (ps.map fun p => removeUniqueId p.1)

/-- `numIntPartitions`, src/Field3DFile.cpp:649-667. -/
def Listing.numInt (ps : Listing) (u : Name) : Nat := (ps.filter fun p => beforeDot p.1 = some u).length

/-- `getScalarLayerNames` and `getVectorLayerNames`, src/Field3DFile.cpp:512-558. -/
def Listing.layerNames (ps : Listing) (u : Name) : List Name :=
  makeUnique ((List.range (ps.numInt u)).flatMap fun i => (ps.layersOf (intName u i)).getD [])

/-! ## Writing -/

/-- What files need from mappings: `a->isIdentical(b)`, and for `writeMapping`, src/Field3DFile.cpp:1014-1041, its
result and the entries of the group "mapping". -/
structure MapIO (M : Type) where
  ident : M → M → Bool
  write : M → Bool × List Entry

/-- A call of `writeLayer`: the names, the mapping of the field, the entries that `writeMetadata` and `writeField` make
for the field. -/
structure Write (M : Type) where
  part : Name
  layer : Name
  mapping : M
  mdata : List Entry
  body : List Entry

/-- `File::Partition`, export/Field3DFile.h:120-165, with the entries of its group. -/
structure Part (M : Type) where
  name : Name
  mapping : Option M
  layers : List Name
  group : List Entry

/-- What is in the root group, in order: partitions stay open until the file is closed. -/
inductive Slot (M : Type) where
  | entry (e : Entry)
  | part (p : Part M)

/-- `Field3DOutputFile`: the partitions are those of the open file; `count` is `m_partitionCount`. -/
structure Out (M : Type) where
  isOpen : Bool
  slots : List (Slot M)
  count : Dict Nat

variable {M : Type}

def Slot.part? : Slot M → Option (Part M)
  | .entry _ => none
  | .part p => some p

/-- `m_partitions`. -/
def Out.parts (o : Out M) : List (Part M) := o.slots.filterMap Slot.part?

def Out.listing (o : Out M) : Listing := o.parts.map fun p => (p.name, p.layers)

/-- What the file has after it is closed. -/
def Slot.encode : Slot M → Entry
  | .entry e => e
  | .part p => .group p.name p.group
def Out.entries (o : Out M) : List Entry := o.slots.map Slot.encode

/-- A new object. -/
def Out.new : Out M := ⟨false, [], []⟩

/-- The version of the library, export/ns.h:38-40. -/
def libVersion : V3i := ⟨1, 7, 3⟩

/-- `cleanup`, export/Field3DFile.h:805-816; `close` and `clear`, src/Field3DFile.cpp:614-644. -/
def Out.close (o : Out M) : Out M := { o with isOpen := false, slots := [] }

/-- `create`, src/Field3DFile.cpp:980-1010. `ok`: the file could be made, and did not exist if that was asked for. -/
def Out.create (o : Out M) (ok : Bool) : Out M :=
  let o := o.close
  if ok then { o with isOpen := true, slots := [.entry (.attribute kVersionNumber .veci32 (encV3i libVersion))] } else o

/-- How a call ends: undefined behaviour, an exception, `false` or `true`. -/
inductive Ret where
  | crash
  | threw
  | failed
  | written
deriving DecidableEq, Repr

/-- The counter of a partition name: src/Field3DFile.cpp:436-444 and 1302-1308. -/
def nextIndex (u : Name) (count : Dict Nat) : Nat × Dict Nat :=
  match count.get u with
  | some k => (k + 1, count.set u (k + 1))
  | none => (0, count.set u 0)

/-- The loop of `intPartitionName`, src/Field3DFile.cpp:426-433. The outer `none`: a partition without mapping. -/
def matching (C : MapIO M) (u : Name) (m : M) : List (Part M) → Option (Option Name)
  | [] => some none
  | p :: ps =>
    if removeUniqueId p.name = u then
      match p.mapping with
      | none => none
      | some pm => if C.ident pm m then some (some p.name) else matching C u m ps
    else matching C u m ps

/-- `partition(name)`. -/
def findPart (n : Name) : List (Part M) → Option (Part M)
  | [] => none
  | p :: ps => if p.name = n then some p else findPart n ps

/-- A change of the object that `partition(name)` points at. -/
def change (n : Name) (f : Part M → Part M) : List (Slot M) → List (Slot M)
  | [] => []
  | .entry e :: l => .entry e :: change n f l
  | .part p :: l => if p.name = n then .part (f p) :: l else .part p :: change n f l

/-- `createNewPartition`, src/Field3DFile.cpp:1356-1402: `written` is a partition, `failed` a null pointer. The check
for '/' is that of the constructor of `OgOGroup`, include/OgOGroup.h:52-56. -/
def createPart (C : MapIO M) (n : Name) (m : M) (o : Out M) : Ret × Out M :=
  if (47 : UInt8) ∈ n then (.threw, o) else
  let r := C.write m
  if r.1 then
    let p : Part M :=
      ⟨n, none, [], [.group kMapping r.2, .attribute kIsPartition .string [49]]⟩
    (.written, { o with slots := change n (fun p => { p with mapping := some m }) (o.slots ++ [.part p]) })
  else
    let p : Part M := ⟨n, none, [], [.group kMapping r.2]⟩
    (.failed, { o with slots := o.slots ++ [.part p] })

/-- The group of a layer, src/Field3DFile.cpp:1484-1500: the class name is part of the body. -/
def layerGroup (w : Write M) : List Entry :=
  [.attribute kClassType .string kLayerText, .group kMetadata w.mdata] ++ w.body

/-- The end of `writeLayer`, src/Field3DFile.cpp:1459-1508, with the partition `n`. -/
def addLayer (C : MapIO M) (w : Write M) (n : Name) (o : Out M) : Ret × Out M :=
  match findPart n o.parts with
  | none => (.crash, o)
  | some p =>
    match p.mapping with
    | none => (.failed, o)
    | some pm =>
      if C.ident w.mapping pm then
        if (47 : UInt8) ∈ w.layer then (.threw, o) else
        (.written, { o with slots := change n (fun p =>
          { p with layers := p.layers ++ [w.layer], group := p.group ++ [.group w.layer (layerGroup w)] }) o.slots })
      else (.failed, o)

/-- `createNewPartition` and the rest. -/
def addNew (C : MapIO M) (w : Write M) (n : Name) (o : Out M) : Ret × Out M :=
  match createPart C n w.mapping o with
  | (.written, o) => addLayer C w n o
  | r => r

/-- `writeLayer`, src/Field3DFile.cpp:1409-1510, with `intPartitionName`, 420-447, and `incrementPartitionName`,
1298-1311. -/
def writeLayer (C : MapIO M) (w : Write M) (o : Out M) : Ret × Out M :=
  if o.isOpen then
    match matching C w.part w.mapping o.parts with
    | none => (.crash, o)
    | some none =>
      let k := nextIndex w.part o.count
      let n := intName w.part k.1
      let o := { o with count := k.2 }
      match findPart n o.parts with
      | none => addNew C w n o
      | some p =>
        if w.layer ∈ p.layers then
          let k := nextIndex (removeUniqueId n) o.count
          addNew C w (intName (removeUniqueId n) k.1) { o with count := k.2 }
        else addLayer C w n o
    | some (some n) =>
      match findPart n o.parts with
      | none => addNew C w n o
      | some p =>
        if w.layer ∈ p.layers then
          let k := nextIndex (removeUniqueId n) o.count
          addNew C w (intName (removeUniqueId n) k.1) { o with count := k.2 }
        else addLayer C w n o
  else (.failed, o)

/-- `writeGlobalMetadata`, src/Field3DFile.cpp:1233-1247, with the entries of the metadata of the file; without an
open file the null root group is used. -/
def writeGlobal (es : List Entry) (o : Out M) : Ret × Out M :=
  if o.isOpen then (.written, { o with slots := o.slots ++ [.entry (.group kGlobal es)] }) else (.crash, o)

/-- Calls on an output file. -/
inductive Call (M : Type) where
  | create (ok : Bool)
  | close
  | write (w : Write M)
  | global (es : List Entry)

def Out.step (C : MapIO M) (o : Out M) : Call M → Ret × Out M
  | .create ok => (if ok then .written else .failed, o.create ok)
  | .close => (.written, o.close)
  | .write w => writeLayer C w o
  | .global es => writeGlobal es o

/-- The results of calls, one after the other. After a crash nothing is said: the state is `none`. -/
def Out.run (C : MapIO M) (o : Out M) : List (Call M) → Option (List Ret × Out M)
  | [] => some ([], o)
  | c :: cs =>
    match o.step C c with
    | (.crash, _) => none
    | (r, o) => (Out.run C o cs).map fun x => (r :: x.1, x.2)

/-! ## Reading -/

/-- A partition of an input file: `none` for a mapping that could not be read. -/
structure InPart (L : Type) where
  name : Name
  mapping : Option L
  layers : List Name

/-- `Field3DInputFile` after `open`: the partitions, the metadata of the file, and the root group. -/
structure In (L : Type) where
  parts : List (InPart L)
  info : Meta
  root : List Tree

def In.listing {L : Type} (i : In L) : Listing := i.parts.map fun p => (p.name, p.layers)

/-- A group that was not found has no children: everything looked up in it is absent. -/
def kidsOr (r : Option (Option (List Tree))) : Option (List Tree) := r.map fun k => k.getD []

/-- The mapping of a partition, src/Field3DFile.cpp:882-906: a null pointer is kept, an exception makes `open`
fail. -/
def readPartMapping {L : Type} (readMap : List Tree → Res L) (root : List Tree) (n : Name) : Res (Option L) :=
  match kidsOr (find .group n root) with
  | none => .crash
  | some pk =>
    match kidsOr (find .group kMapping pk) with
    | none => .crash
    | some mk =>
      match readMap mk with
      | .ok m => .ok (some m)
      | .null => .ok none
      | .crash => .crash
      | .exception => .exception
      | .running => .running

/-- The names of the layers of a partition, src/Field3DFile.cpp:918-935. -/
def readLayerNames (root : List Tree) (n : Name) : Option (List Name) :=
  (kidsOr (find .group n root)).bind fun pk => (names .group pk).map fun l => l.filter fun x => x ≠ kMapping

/-- Mappings of all partitions, in order. -/
def readMappings {L : Type} (readMap : List Tree → Res L) (root : List Tree) : List Name → Res (List (InPart L))
  | [] => .ok []
  | n :: ns =>
    (readPartMapping readMap root n).bind fun m =>
    (readMappings readMap root ns).bind fun ps => .ok (⟨n, m, []⟩ :: ps)

/-- `partition(name)->addLayer` for all the names. -/
def giveLayers {L : Type} (n : Name) (ls : List Name) : List (InPart L) → List (InPart L)
  | [] => []
  | p :: ps => if p.name = n then { p with layers := p.layers ++ ls } :: ps else p :: giveLayers n ls ps

/-- The layers of all partitions, in order. -/
def readAllLayers {L : Type} (root : List Tree) : List Name → List (InPart L) → Option (List (InPart L))
  | [], ps => some ps
  | n :: ns, ps => (readLayerNames root n).bind fun ls => readAllLayers root ns (giveLayers n ls ps)

/-- `readPartitionAndLayerInfo`, src/Field3DFile.cpp:857-940. -/
def readInfo {L : Type} (readMap : List Tree → Res L) (root : List Tree) : Res (List (InPart L)) :=
  match names .group root with
  | none => .crash
  | some l =>
    let ns := l.filter fun x => x ≠ kGlobal
    (readMappings readMap root ns).bind fun ps =>
    match readAllLayers root ns ps with
    | none => .crash
    | some ps => .ok ps

/-- The version check, src/Field3DFile.cpp:743-764 and 143-181: a file without version is read; a file newer than the
library too; `some false` is an unsupported version. -/
def versionOk (root : List Tree) : Option Bool :=
  match findTyped .attribute .veci32 kVersionNumber root with
  | none => none
  | some none => some true
  | some (some a) =>
    (attributeValue .veci32 (some a)).map fun v =>
      let v := decV3i (v.getD (List.replicate 12 0))
      decide (v.x > libVersion.x ∨ (v.x = libVersion.x ∧ v.y > libVersion.y)) ||
        decide (¬ (v.x < 0 ∨ (v.x = 0 ∧ v.y < 0)))

/-- `open`, src/Field3DFile.cpp:714-853, of a valid archive with this root group, by a new object. `null` is the result
`false`. -/
def openFile {L : Type} (readMap : List Tree → Res L) (root : List Tree) : Res (In L) :=
  match versionOk root with
  | none => .crash
  | some false => .null
  | some true =>
    match find .group kGlobal root with
    | none => .crash
    | some g =>
      match (match g with | none => some Meta.empty | some ks => readMeta ks Meta.empty) with
      | none => .crash
      | some info =>
        match readInfo readMap root with
        | .ok ps => .ok ⟨ps, info, root⟩
        | .exception => .null
        | .null => .null
        | .crash => .crash
        | .running => .running

/-- A field that was read: its name, attribute, mapping, metadata and contents. -/
structure Loaded (L F : Type) where
  name : Name
  attr : Name
  mapping : Option L
  info : Meta
  data : F

/-- What a class of fields does with its metadata: the metadata of a field that its reader made, and the effect of
`setMapping` on a field and its metadata, by `mappingChanged`, export/Field.h:347-360. -/
class FieldClass (F : Type) where
  start : F → Meta
  mapped : F → Meta → F × Meta

/-- The part of `readLayer` that looks at the group of the layer, src/Field3DFile.cpp:1547-1594: class name, contents
and metadata, and what `setMapping` does to both. `readField cls kids` is the reader of the class for the type that was asked for; `null` also if there is
no such class. -/
def readBody {F : Type} [FieldClass F] (readField : Name → List Tree → Res F) (kids : List Tree) : Res (F × Meta) :=
  match findTyped .attribute .string kClassName kids with
  | none => .crash
  | some none => .crash
  | some (some a) =>
    match attributeValue .string (some a) with
    | none => .crash
    | some v =>
      (readField (v.getD []) kids).bind fun f =>
      match find .group kMetadata kids with
      | none => .crash
      | some none => .ok (FieldClass.mapped f (FieldClass.start f))
      | some (some mk) =>
        match readMeta mk (FieldClass.start f) with
        | none => .crash
        | some m => .ok (FieldClass.mapped f m)

/-- The first partition with the name. -/
def findIn {L : Type} (n : Name) : List (InPart L) → Option (InPart L)
  | [] => none
  | p :: ps => if p.name = n then some p else findIn n ps

/-- `layerPath`, src/Field3DFile.cpp:1555: the parent of a layer is its partition. -/
def layerPath (n l : Name) : Name := n ++ 47 :: l

/-- `readLayer`, src/Field3DFile.cpp:1515-1602. The reader of a class is given the path of the layer, too. -/
def In.readLayer {L F : Type} [FieldClass F] (i : In L) (readField : Name → Name → List Tree → Res F) (n l : Name) :
    Res (Loaded L F) :=
  match findIn n i.parts with
  | none => .null
  | some p =>
    if l ∈ p.layers then
      match find .group n i.root with
      | none => .crash
      | some none => .null
      | some (some pk) =>
        match find .group l pk with
        | none => .crash
        | some none => .null
        | some (some lk) =>
          if valid lk then
            (readBody (readField (layerPath n l)) lk).bind fun b => .ok ⟨removeUniqueId n, l, p.mapping, b.2, b.1⟩
          else .null
    else .null

/-- The loop over layers of both `readLayers`: null pointers are left out. -/
def collect {β : Type} : List (Res β) → Res (List β)
  | [] => .ok []
  | .null :: rs => collect rs
  | r :: rs => r.bind fun b => (collect rs).bind fun bs => .ok (b :: bs)

/-- `readLayers(name)`, src/Field3DFile.cpp:1608-1636: the empty name stands for all names. -/
def In.readAll {L F : Type} [FieldClass F] (i : In L) (readField : Name → Name → List Tree → Res F) (l : Name) :
    Res (List (Loaded L F)) :=
  collect <| (i.parts.map (·.name)).flatMap fun n =>
    (((i.listing.layersOf n).getD []).filter fun x => l = [] ∨ x = l).map fun x => i.readLayer readField n x

/-- `readLayers(partitionName, layerName)`, src/Field3DFile.cpp:1641-1677. -/
def In.readLayers {L F : Type} [FieldClass F] (i : In L) (readField : Name → Name → List Tree → Res F) (u l : Name) :
    Res (List (Loaded L F)) :=
  if l = [] ∨ u = [] then .ok []
  else
    collect <| (i.parts.map (·.name)).flatMap fun n =>
      if removeUniqueId n = u then
        (((i.listing.layersOf n).getD []).filter fun x => x = l).map fun x => i.readLayer readField n x
      else []

end Files
end F3D
