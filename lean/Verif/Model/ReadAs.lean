import Verif.Model.CopyFrom
import Verif.Model.Hdf5Mip
import Verif.Model.MappingIO

/-!
# Layers that are converted when they are read

Models `readScalarLayersAs` and `readVectorLayersAs` of `Field3DInputFileHDF5`, export/Field3DFileHDF5.h:485-625 (of whole files
only the forms that take the name of a partition). What
`readScalarLayers` and `readVectorLayers` give is in `Verif.Model.Hdf5Files`, `copyFrom` in `Verif.Model.CopyFrom`.
-/

namespace F3D
namespace ReadAs
open Ogawa Og FieldIO
open Identical (Map)
open Metadata (Meta)
open Copy

variable {α : Type}

/-- The contents of a field of voxel type `α`. Of classes other than `DenseField` and `SparseField` only what `copyFrom`
looks at: windows and `value`. -/
inductive Contents (α : Type) where
  | dense (f : Dense α)
  | sparse (f : Sparse α)
  | other (extents dw : Box3i) (value : V3i → Option α)

def Contents.extents : Contents α → Box3i
  | .dense f => f.extents
  | .sparse f => f.extents
  | .other e _ _ => e
def Contents.dw : Contents α → Box3i
  | .dense f => f.dw
  | .sparse f => f.dw
  | .other _ w _ => w
def Contents.value : Contents α → V3i → Option α
  | .dense f => f.value
  | .sparse f => f.value
  | .other _ _ v => v

/-- A field: names, metadata, mapping and contents. -/
structure Item (α : Type) where
  name : Name
  attr : Name
  info : Meta
  map : Map
  data : Contents α

/-- What `copyFrom` sees of a field. -/
def Item.source (f : Item α) : Source α := ⟨⟨f.data.extents, f.data.dw, f.map⟩, f.data.value⟩

/-- The template argument `Field_T`. -/
inductive Cls where
  | dense
  | sparse
deriving DecidableEq

/-- `field_dynamic_cast<Field_T<Data_T> >(*i)` is not null: see C86. -/
def Cls.casts : Cls → Contents α → Bool
  | .dense, .dense _ => true
  | .sparse, .sparse _ => true
  | _, _ => false

/-- What one iteration of the loop pushes back, export/Field3DFileHDF5.h:500-516 (the same in 535-551, 570-586 and 606-622): the
field itself, or a new one with the names and the metadata and `copyFrom`. `none` is undefined behaviour; nothing is pushed
back if `copyFrom` throws. The constructors are export/DenseField.h:446-451 and export/SparseField.h:1287-1294. -/
def Converts (zero dflt : α) (c : Cls) (f : Item α) (r : Option (Item α)) : Prop :=
  if c.casts f.data then r = some f
  else
    match Defn.new.copy f.source.toDefn with
    | none => r = none
    | some d =>
      match c with
      | .dense => ∃ g, DenseCopies dflt id f.source g ∧ r = g.map fun g => ⟨f.name, f.attr, f.info, d.map, .dense g⟩
      | .sparse => ∃ g, SparseCopies zero id f.source (Sparse.empty zero) g ∧
          r = g.map fun g => ⟨f.name, f.attr, f.info, d.map, .sparse g⟩

/-- The loop, export/Field3DFileHDF5.h:497-519: it ends with the output `rs`. -/
def ConvertsAll (zero dflt : α) (c : Cls) (fs rs : List (Item α)) : Prop :=
  List.Forall₂ (fun f r => Converts zero dflt c f (some r)) fs rs

/-- `copyFrom` into a new MAC field, `readVectorLayersAs<MACField, Data_T>`. -/
def ConvertsToMac (f : Item V3q) (r : Option Mac) : Prop := MacCopies f.source Mac.fresh r

/-- The mapping object that was read. -/
def asMap : MappingIO.Loaded → Map
  | .null => .null
  | .matrix m => .matrix m
  | .frustum m => .frustum m

/-- A field that `readLayer` returns: `setMapping` with the mapping of its partition, export/Field3DFileHDF5.h:1140-1143 and
export/Field.h:347-360. -/
def fieldOf (l : Files.Loaded MappingIO.Loaded (Hdf5.AnyField α)) : Option (Item α) :=
  let data : Contents α := match l.data with
    | .dense f => .dense f
    | .sparse f => .sparse f
  (setExtents ((l.mapping.map asMap).getD Defn.new.map) data.extents).map fun m => ⟨l.name, l.attr, l.info, m, data⟩

/-- `readScalarLayersAs(partitionName, layerName)` and `readVectorLayersAs(partitionName, layerName)`,
export/Field3DFileHDF5.h:524-554 and 593-625, end with the fields `rs`. -/
def ReadsLayersAs [Files.FieldClass (Hdf5.AnyField α)] (zero dflt : α) (c : Cls) (ord : Hdf5.Order) (i : Hdf5.In MappingIO.Loaded)
    (readField : Name → Name → Hdf5.Obj → Res (Hdf5.AnyField α)) (isVec : Bool) (u l : Name) (rs : List (Item α)) : Prop :=
  ∃ ls fs, i.readLayers ord readField isVec u l = .ok ls ∧ ls.mapM fieldOf = some fs ∧ ConvertsAll zero dflt c fs rs

end ReadAs
end F3D
