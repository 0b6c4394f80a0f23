import Verif.Model.MipIO
import Verif.Model.MipOffset
import Verif.Proofs.Mapping

/-!
# Fields and mappings as the contents of files

Joins `Files` with the IO classes of dense, sparse and MIP fields and of mappings. Left out: MAC fields, classes registered
by plugins, frustum mappings (see C47), sparse fields that are loaded later (C12, C13).
-/

namespace F3D
namespace LayerIO
open Ogawa Og FieldIO
open MappingIO (mappingEntries matrixClass matrixEntries nullClass nullEntries BSample readMapping)
open Metadata (Meta)
open Files
open MipIO (denseClass sparseClass mipClass Level Lazy readMip writeMip)

/-- A field that was read. -/
inductive AnyField (α : Type) where
  | dense (f : Dense α)
  | sparse (f : Sparse α)
  | mip (m : Lazy) (offset : V3i)

/-- Fields of other classes have no metadata of their own and `mappingChanged` does nothing to them, export/Field.h:287-288.
When a MIP field is read, `setupLazyLoad` has set its mapping, so that its metadata has the offset zero
(`updateMapping`, export/MIPField.h:676-682); `setMapping` takes the offset from the metadata (`mappingChanged`, 548-568). -/
instance {α : Type} : FieldClass (AnyField α) where
  start
    | .mip _ _ => MipField.Off.new.mappingChanged.info
    | _ => Metadata.Meta.empty
  mapped
    | .mip m off, info =>
      let o := (⟨off, info⟩ : MipField.Off).mappingChanged
      (.mip m o.offset, o.info)
    | f, info => (f, info)

/-- `writeField`, src/Field3DFile.cpp:223-241: the class name and what the IO class adds. -/
def fieldEntries (cls : Name) (es : List Entry) : List Entry := .attribute kClassName .string cls :: es

/-- `readField`, src/Field3DFile.cpp:249-278, with `createFieldIO`, src/ClassFactory.cpp:165-173, for a voxel type.
The threads that read blocks of a sparse field run with the schedule given for the layer; `path` is that of the layer. -/
def readField {α : Type} (e : Elem α) (z : Zlib) (zero dflt : α) (threads : Nat) (sched : List Tree → List Nat)
    (path cls : Name) (kids : List Tree) : Res (AnyField α) :=
  if cls = denseClass then (readDense e dflt kids).bind fun f => .ok (.dense f)
  else if cls = sparseClass then (readSparse e z zero dflt threads (sched kids) kids).bind fun f => .ok (.sparse f)
  else if cls = mipClass then (readMip e.type path kids).bind fun m => .ok (.mip m MipField.Off.new.mappingChanged.offset)
  else .null

/-- `readFieldMapping`, src/Field3DFile.cpp:190-217. A frustum mapping that cannot be made is undefined. -/
def readMap (invTan : Rat) (kids : List Tree) : Res MappingIO.Loaded :=
  (readMapping invTan kids).bind fun m =>
  match m with
  | some m => .ok m
  | none => .crash

/-- A matrix mapping after any calls, with the bytes of its samples. -/
structure MatrixMap where
  frame : Mapping.Frame
  ops : List Mapping.Op
  samples : List BSample
  same : MappingIO.curveVal samples = some (Mapping.Matrix.run frame ops).lsToWsCurve
  count : samples.length < 2 ^ 31

/-- A mapping to be written: a null mapping or a matrix mapping. -/
inductive AnyMap where
  | null
  | matrix (m : MatrixMap)

/-- `writeMapping`, src/Field3DFile.cpp:1014-1041. -/
def writeMap : AnyMap → Bool × List Entry
  | .null => (true, mappingEntries nullClass nullEntries)
  | .matrix m => (true, mappingEntries matrixClass (matrixEntries m.samples))

/-- A field to be written: of the voxel type `α`, or of another one, or of another class, with what its IO class adds. A sparse field comes with the entries that its threads have put together (`writeSparse`). -/
inductive Content (α : Type) : Type 1 where
  | dense (f : Dense α)
  | sparse (f : Sparse α) (es : List Entry)
  | mip (cls : Name) (levels : List (Level α))
  | other (β : Type) (e : Elem β) (f : Dense β)
  | otherMip (β : Type) (e : Elem β) (cls : Name) (levels : List (Level β))
  | foreign (cls : Name) (es : List Entry)

def Content.body {α : Type} (e : Elem α) : Content α → List Entry
  | .dense f => fieldEntries denseClass (denseEntries e f)
  | .sparse _ es => fieldEntries sparseClass es
  | .mip cls levels => fieldEntries mipClass (writeMip e cls levels)
  | .other _ e' f => fieldEntries denseClass (denseEntries e' f)
  | .otherMip _ e' cls levels => fieldEntries mipClass (writeMip e' cls levels)
  | .foreign cls es => fieldEntries cls es

/-- A layer to be written: the field with its name, attribute, mapping and metadata. -/
structure Layer (α : Type) : Type 1 where
  name : Name
  attr : Name
  mapping : AnyMap
  info : Meta
  content : Content α

/-- `writeLayer` as called by `writeScalarLayer` and `writeVectorLayer` with a field, src/Field3DFile.cpp:1409-1510. -/
def Layer.write {α : Type} (e : Elem α) (l : Layer α) : Write AnyMap :=
  ⟨l.name, l.attr, l.mapping, Metadata.entries l.info, l.content.body e⟩

/-- A program that writes a file: layers, and the metadata of the file. -/
inductive FileOp (α : Type) : Type 1 where
  | layer (l : Layer α)
  | info (m : Meta)

def FileOp.call {α : Type} (e : Elem α) : FileOp α → Call AnyMap
  | .layer l => .write (l.write e)
  | .info m => .global (Metadata.entries m)

end LayerIO
end F3D
